import Verif.Model.EditorOpen
import Verif.Props.SaveTo
import Verif.Props.Editing
import Verif.Props.EditDbf

/-!
# C170: `Editor(name)` edits the file of that name
-/
namespace Coral
namespace Shapefile

section
variable {D F : Type} [Double D] {pyFloat : List Byte → Py F} {floatStr : F → Str} {t : Option Int}

/-- C170, what holds: if the constructor returns for the name of a file that is there, and the name without its extension has no further dot in its
last component, the editor holds the shapes and the attributes of that very file. Missing: files that are not there and names with more dots, see below. -/
theorem C170_contents_partial {d : Disk} {s : Str} (h0 : s ≠ []) (hr : root (root s) = root s) (hd : (d (root s ++ shpExt)).isSome) {e : Session D}
    (h : Opens pyFloat floatStr t d (.name s) e) :
    ∃ shp shx dbf w a, load d s = .ok (shp, shx, dbf) ∧ e.self = some ⟨w, a⟩ ∧ Opened shp w ∧ Dbf.edit pyFloat floatStr dbf = .ok a := by
  cases h with
  | empty => exact absurd rfl h0
  | @there _ shp shx dbf w a h1 h2 h3 h4 h5 =>
    refine ⟨shp, shx, dbf, w, a, ?_, rfl, h4, h5⟩
    unfold load at h3 ⊢
    rwa [hr] at h3
  | missing h1 h2 => rw [h2] at hd; cases hd

/-- C170: without a name the editor is empty. -/
theorem C170_new {d : Disk} {e : Session D} (h : Opens pyFloat floatStr t d .nothing e) :
    ∃ s, e.self = some s ∧ s.geometry.shapes = [] ∧ s.geometry.shapeType = t ∧ s.attributes.fields = [] ∧ s.attributes.records = [] := by
  cases h; exact ⟨_, rfl, rfl, rfl, rfl, rfl⟩

/-- Not saving the attributes. -/
def Call.notDbf : Call D → Prop
  | .saveDbf _ => False
  | _ => True

/-- C170 is violated: for a name without a file the constructor returns, and then every call raises `AttributeError`. -/
theorem C170_missing_violated {d : Disk} {s : Str} (h0 : s ≠ []) (hd : d (root s ++ shpExt) = none) :
    (∃ e : Session D, Opens pyFloat floatStr t d (.name s) e) ∧ ∀ e : Session D, Opens pyFloat floatStr t d (.name s) e →
      ∀ c : Call D, ∀ y m dy left, (e.call d y m dy left c).2.2 = .error .attributeError ∧
        (c.notDbf → (e.call d y m dy left c).1 = d) := by
  refine ⟨⟨_, .missing h0 hd⟩, fun e h c y m dy left => ?_⟩
  cases h with
  | empty => exact absurd rfl h0
  | there h1 h2 _ _ _ => rw [hd] at h2; cases h2
  | missing _ _ => cases c <;> exact ⟨rfl, by first | exact fun h => h.elim | exact fun _ => rfl⟩

/-- C170 is violated: the same holds for what is not a string. -/
theorem C170_object_violated {d : Disk} : (∃ e : Session D, Opens pyFloat floatStr t d .object e) ∧ ∀ e : Session D, Opens pyFloat floatStr t d .object e →
      ∀ c : Call D, ∀ y m dy left, (e.call d y m dy left c).2.2 = .error .attributeError := by
  refine ⟨⟨_, .object⟩, fun e h c y m dy left => ?_⟩
  cases h
  cases c <;> rfl

/-- C170 is violated at a cost: `saveDbf(target)` of such an editor empties the attributes of a file that was there. -/
theorem C170_emptied_violated {d : Disk} {s target : Str} (h0 : s ≠ []) (hd : d (root s ++ shpExt) = none) {shp shx dbf : List Byte}
    (hl : load d target = .ok (shp, shx, dbf)) {e : Session D} (h : Opens pyFloat floatStr t d (.name s) e) (y m dy : Int) (left : List Byte) :
    load (e.call d y m dy left (.saveDbf target)).1 target = .ok (shp, shx, []) := by
  cases h with
  | empty => exact absurd rfl h0
  | there h1 h2 _ _ _ => rw [hd] at h2; cases h2
  | missing _ _ =>
    have hc : ((⟨none⟩ : Session D).call d y m dy left (.saveDbf target)).1 = d.put (root target ++ dbfExt) [] := rfl
    rw [hc]
    have n2 : root target ++ shpExt ≠ root target ++ dbfExt := ext_ne rfl (Or.inr (by decide))
    have n3 : root target ++ shxExt ≠ root target ++ dbfExt := ext_ne rfl (Or.inr (by decide))
    unfold load at hl ⊢
    simp only [put_same, put_other _ n2, put_other _ n3]
    split at hl
    · rename_i h2 h3 h4
      cases hl
      simp [h2, h3]
    · cases hl

/-- C170 is violated for names with more dots: `Editor("x.a.shp")` looks whether `x.a.shp` is there but holds the contents of `x.shp`. -/
theorem C170_other_file_violated {d : Disk} {p a b : Str} {c z : Char} (hc : c ≠ '.' ∧ c ≠ '/') (hz : z ≠ '.' ∧ z ≠ '/')
    (ha : ∀ x ∈ a, x ≠ '.' ∧ x ≠ '/') (hb : ∀ x ∈ b, x ≠ '.' ∧ x ≠ '/')
    (hd : (d (p ++ [c] ++ '.' :: (a ++ [z]) ++ shpExt)).isSome) {e : Session D}
    (h : Opens pyFloat floatStr t d (.name (p ++ [c] ++ '.' :: (a ++ [z]) ++ '.' :: b)) e) :
    ∃ shp shx dbf w at', load d (p ++ [c] ++ shpExt) = .ok (shp, shx, dbf) ∧ e.self = some ⟨w, at'⟩ ∧ Opened shp w ∧
      Dbf.edit pyFloat floatStr dbf = .ok at' := by
  have hs : p ++ [c] ++ '.' :: (a ++ [z]) ++ '.' :: b = (p ++ [c] ++ '.' :: a) ++ [z] ++ '.' :: b := by simp
  have hs2 : p ++ [c] ++ '.' :: (a ++ [z]) = (p ++ [c] ++ '.' :: a) ++ [z] := by simp
  have r1 : root (p ++ [c] ++ '.' :: (a ++ [z]) ++ '.' :: b) = p ++ [c] ++ '.' :: (a ++ [z]) := by
    rw [hs, hs2]; exact root_ext hz hb
  have r2 : root (p ++ [c] ++ '.' :: (a ++ [z])) = p ++ [c] := root_ext hc (fun x hx => by
    rcases List.mem_append.mp hx with hx | hx
    · exact ha x hx
    · rw [List.mem_singleton.mp hx]; exact hz)
  have r3 : root (p ++ [c] ++ shpExt) = p ++ [c] := root_ext (a := ['s', 'h', 'p']) hc (by decide)
  generalize hn : p ++ [c] ++ '.' :: (a ++ [z]) ++ '.' :: b = s at h r1
  cases h with
  | empty => simp at hn
  | @there _ shp shx dbf w at' h1 h2 h3 h4 h5 =>
    refine ⟨shp, shx, dbf, w, at', ?_, rfl, h4, h5⟩
    rw [r1] at h3
    unfold load at h3 ⊢
    rw [r3]
    rwa [r2] at h3
  | missing h1 h2 => rw [r1] at h2; rw [h2] at hd; cases hd

/-- C170, what holds, from saving to editing: what was saved under a name is what `Editor(name)` holds, shape by shape and record by record. Missing:
patches and values that do not come back, see C84 and C88, and the names above. -/
theorem C170_saved_partial {s : Source D} {d d' : Disk} {target : Str} {y m dy : Int} {left : List Byte} (h : s.saveTo d target y m dy left = (d', .ok ()))
    (h0 : target ≠ []) (hr : root (root target) = root target) {ft : Int} (hft : fileType s.geometry = some ft) (hp : Plain ft)
    (hf : ∀ f ∈ s.attributes.fields, Dbf.Ascii f.name ∧ f.deletes = false ∧ f.name.length ≤ 10 ∧ (∀ c ∈ f.name, c ≠ ' ' ∧ c.toNat ≠ 0) ∧ lstrip f.name = f.name)
    (hne : s.attributes.records ≠ []) {outs : List (List (Dbf.Value F))} (hrow : List.Forall₂ (Dbf.Row s.attributes.fields) s.attributes.records outs) :
    ∃ e : Session D, Opens pyFloat floatStr t d' (.name target) e ∧ ∃ w a, e.self = some ⟨w, a⟩ ∧ w.shapeType = some ft ∧
      List.Forall₂ (Same ft) s.geometry.shapes w.shapes ∧ a.fields = Dbf.deletionField :: s.attributes.fields ∧ a.records = s.attributes.records := by
  obtain ⟨w1, shp, w2, shx, a, dbf, h1, h2, h3, h4⟩ := C144_opens h
  obtain ⟨r, outs', hr', hshp, hs, hall⟩ := C84_saved_shapes_read_back h1 hft hp none none
  obtain ⟨ft', n, mm, hd, rs, hft', -, -, -, -, -, -, -, -, hhead⟩ := saveShp_ok h1
  rw [hft] at hft'
  cases hft'
  simp only [Reader.new, hhead, ok_bind] at hr'
  cases hr'
  have hopen : Opened shp ({ shapes := outs', shapeType := some ft } : Writer D) := .mk hhead ((hs _).mpr rfl)
  obtain ⟨ed, he, hfields, hrecords, -⟩ := Dbf.C140_reopened_partial pyFloat floatStr h3 hf hne hrow
  have hsome : (d' (root target ++ shpExt)).isSome := by
    unfold load at h4
    split at h4
    · rename_i h5 _ _; rw [h5]; rfl
    · cases h4
  have h4' : load d' (root target) = .ok (shp, shx, dbf) := by
    unfold load at h4 ⊢
    rwa [hr]
  exact ⟨_, .there h0 hsome h4' hopen he, _, _, rfl, rfl, hall, hfields, hrecords⟩

/-- Nothing on the disk: `Editor("roads")` returns and `null()` raises. -/
example : ∃ e : Session Toy, Opens (fun _ => (.ok 0 : Py Nat)) (fun _ => []) (some 1) (fun _ => none) (.name "roads".toList) e ∧
    (e.call (fun _ => none) 126 11 16 [] .null).2.2 = .error .attributeError :=
  ⟨⟨none⟩, .missing (by decide) rfl, rfl⟩

/-- A point with one record, saved as `map`; the hypotheses of the theorem are met. -/
example : root (root "d.x/map".toList) = root "d.x/map".toList ∧ root "d.x/map".toList = "d.x/map".toList ∧ root (root "map.1.shp".toList) ≠ root "map.1.shp".toList ∧
    ((Source.saveTo (D := Toy) ⟨{ shapes := [{ shapeType := some 1, points := [[toy 1, toy 2, 0, 0]] }], shapeType := some 1 },
      { fields := [Dbf.exampleField 8], records := [[.text ['x']]] }⟩ (fun _ => none) "map".toList 126 11 16 []).2) = .ok () := by
  refine ⟨by decide, by decide, by decide, by decide +kernel⟩

end
end Shapefile
end Coral
