import Verif.Model.SaveTo
import Verif.Props.Dbf

/-!
# Files of shapefiles (C144, C145)
-/
namespace Coral
namespace Shapefile

set_option linter.unusedSectionVars false

section
variable {D : Type} [Double D]

/-! ### C144 -/

theorem put_same (d : Disk) (p : Str) (bs : List Byte) : d.put p bs p = some bs := by simp [Disk.put]

theorem put_other (d : Disk) {p q : Str} (h : q ≠ p) (bs : List Byte) : d.put p bs q = d q := by simp [Disk.put, h]

theorem ext_ne {a b x y : Str} (hl : x.length = y.length) (h : a ≠ b ∨ x ≠ y) : a ++ x ≠ b ++ y := by
  intro he
  obtain ⟨h1, h2⟩ := List.append_inj' he hl
  rcases h with h | h
  · exact h h1
  · exact h h2

theorem put_ok {α : Type} {d d' : Disk} {p : Str} {ready : Py Unit} {left : List Byte} {file : Py (α × List Byte)} {a : α}
    (h : put d p ready left file = (d', .ok a)) : ∃ bs, ready = .ok () ∧ file = .ok (a, bs) ∧ d' = d.put p bs := by
  unfold put at h
  split at h
  · cases h
  · cases h; exact ⟨_, rfl, rfl, rfl⟩
  · cases h

theorem put_frame {α : Type} {d d' : Disk} {p : Str} {ready : Py Unit} {left : List Byte} {file : Py (α × List Byte)} {r : Py α}
    (h : put d p ready left file = (d', r)) {q : Str} (hq : q ≠ p) : d' q = d q := by
  unfold put at h
  split at h <;> cases h
  · rfl
  · exact put_other _ hq _
  · exact put_other _ hq _

theorem saveTo_ok {s : Source D} {d d' : Disk} {target : Str} {y m dy : Int} {left : List Byte} (h : s.saveTo d target y m dy left = (d', .ok ())) :
    ∃ w1 shp w2 shx a dbf, s.geometry.saveShp = .ok (w1, shp) ∧ w1.saveShx = .ok (w2, shx) ∧ s.attributes.saveDbf y m dy = .ok (a, dbf) ∧
      d' = ((d.put (root target ++ shpExt) shp).put (root target ++ shxExt) shx).put (root target ++ dbfExt) dbf := by
  simp only [Source.saveTo] at h
  generalize h1 : put d (root target ++ shpExt) _ left s.geometry.saveShp = p1 at h
  obtain ⟨d1, r1⟩ := p1
  match r1, h1, h with
  | .ok w1, h1, h =>
    obtain ⟨shp, -, hs1, rfl⟩ := put_ok h1
    dsimp only at h
    generalize h2 : put _ (root target ++ shxExt) _ left w1.saveShx = p2 at h
    obtain ⟨d2, r2⟩ := p2
    match r2, h2, h with
    | .ok w2, h2, h =>
      obtain ⟨shx, -, hs2, rfl⟩ := put_ok h2
      dsimp only at h
      generalize h3 : put _ (root target ++ dbfExt) _ left (s.attributes.saveDbf y m dy) = p3 at h
      obtain ⟨d3, r3⟩ := p3
      match r3, h3, h with
      | .ok w3, h3, h =>
        obtain ⟨dbf, -, hs3, rfl⟩ := put_ok h3
        cases h
        exact ⟨w1, shp, w2, shx, w3, dbf, hs1, hs2, hs3, rfl⟩
      | .error e, h3, h => cases h
    | .error e, h2, h => cases h
  | .error e, h1, h => cases h

theorem saveTo_frame (s : Source D) (d : Disk) (target : Str) (y m dy : Int) (left : List Byte) {p : Str}
    (h1 : p ≠ root target ++ shpExt) (h2 : p ≠ root target ++ shxExt) (h3 : p ≠ root target ++ dbfExt) :
    (s.saveTo d target y m dy left).1 p = d p := by
  simp only [Source.saveTo]
  generalize hp1 : put d (root target ++ shpExt) _ left s.geometry.saveShp = p1
  obtain ⟨d1, r1⟩ := p1
  have e1 := put_frame hp1 h1
  match r1 with
  | .error e => exact e1
  | .ok w1 =>
    dsimp only
    generalize hp2 : put _ (root target ++ shxExt) _ left w1.saveShx = p2
    obtain ⟨d2, r2⟩ := p2
    have e2 := put_frame hp2 h2
    match r2 with
    | .error e => exact e2.trans e1
    | .ok w2 =>
      dsimp only
      generalize hp3 : put _ (root target ++ dbfExt) _ left (s.attributes.saveDbf y m dy) = p3
      obtain ⟨d3, r3⟩ := p3
      have e3 := put_frame hp3 h3
      exact e3.trans (e2.trans e1)

/-- C144: after `save(target)`, `Reader(target)` opens the three files that were saved, whatever the name is. -/
theorem C144_opens {s : Source D} {d d' : Disk} {target : Str} {y m dy : Int} {left : List Byte} (h : s.saveTo d target y m dy left = (d', .ok ())) :
    ∃ w1 shp w2 shx a dbf, s.geometry.saveShp = .ok (w1, shp) ∧ w1.saveShx = .ok (w2, shx) ∧ s.attributes.saveDbf y m dy = .ok (a, dbf) ∧
      load d' target = .ok (shp, shx, dbf) := by
  obtain ⟨w1, shp, w2, shx, a, dbf, h1, h2, h3, rfl⟩ := saveTo_ok h
  refine ⟨w1, shp, w2, shx, a, dbf, h1, h2, h3, ?_⟩
  have n1 : root target ++ shpExt ≠ root target ++ shxExt := ext_ne rfl (Or.inr (by decide))
  have n2 : root target ++ shpExt ≠ root target ++ dbfExt := ext_ne rfl (Or.inr (by decide))
  have n3 : root target ++ shxExt ≠ root target ++ dbfExt := ext_ne rfl (Or.inr (by decide))
  simp only [load, put_same, put_other _ n1, put_other _ n2, put_other _ n3]

/-- C144, what holds: saving under one name does not touch what was saved under another one, whether it raises or not, if the names differ
without the extension. Missing: names that differ in the extension only, see below. -/
theorem C144_separate_partial (s : Source D) (d : Disk) {target other : Str} (hne : root target ≠ root other) (y m dy : Int) (left : List Byte) :
    load (s.saveTo d target y m dy left).1 other = load d other := by
  have fr : ∀ x, x.length = 4 → (s.saveTo d target y m dy left).1 (root other ++ x) = d (root other ++ x) := fun x hx =>
    saveTo_frame s d target y m dy left (ext_ne hx (Or.inl hne.symm)) (ext_ne hx (Or.inl hne.symm)) (ext_ne hx (Or.inl hne.symm))
  simp only [load, fr shpExt rfl, fr shxExt rfl, fr dbfExt rfl]

/-- Names without dots in the last component are their own roots. -/
theorem C144_plain_names_partial {dir file : Str} (hf : ∀ c ∈ file, c ≠ '.' ∧ c ≠ '/') (hd : dir = [] ∨ ∃ p, dir = p ++ ['/']) : root (dir ++ file) = dir ++ file := by
  have h1 : ∀ l : Str, (∀ c ∈ l, c ≠ '.' ∧ c ≠ '/') → ∀ r : Str, (l ++ r).dropWhile (fun c => c ≠ '.' && c ≠ '/') = r.dropWhile (fun c => c ≠ '.' && c ≠ '/') := by
    intro l hl r
    induction l with
    | nil => rfl
    | cons a l ih =>
      have := hl a (by simp)
      rw [List.cons_append, List.dropWhile_cons, if_pos (by simpa using this)]
      exact ih (fun c hc => hl c (by simp [hc]))
  unfold root
  rw [List.reverse_append, h1 _ (fun c hc => hf c (by simpa using hc))]
  rcases hd with rfl | ⟨p, rfl⟩
  · rfl
  · simp

theorem root_ext {p a : Str} {c : Char} (hc : c ≠ '.' ∧ c ≠ '/') (ha : ∀ x ∈ a, x ≠ '.' ∧ x ≠ '/') : root (p ++ [c] ++ '.' :: a) = p ++ [c] := by
  have h1 : ∀ l : Str, (∀ c ∈ l, c ≠ '.' ∧ c ≠ '/') → ∀ r : Str, (l ++ '.' :: r).dropWhile (fun c => c ≠ '.' && c ≠ '/') = '.' :: r := by
    intro l hl r
    induction l with
    | nil => simp
    | cons a l ih =>
      have := hl a (by simp)
      rw [List.cons_append, List.dropWhile_cons, if_pos (by simpa using this)]
      exact ih (fun c hc => hl c (by simp [hc]))
  unfold root
  have e : (p ++ [c] ++ '.' :: a).reverse = a.reverse ++ '.' :: (c :: p.reverse) := by simp
  rw [e, h1 _ (fun c hc => ha c (by simpa using hc))]
  refine (if_pos ?_).trans ?_
  rotate_left
  · simp
  · rw [List.takeWhile_cons, if_pos (by simpa using hc.2)]
    simp [hc.1]

/-- C144 fails for names with dots: of two data sets `x.a` and `x.b` the second one replaces the first one. -/
theorem C144_violated {s : Source D} {d d' : Disk} {p a b : Str} {c : Char} (hc : c ≠ '.' ∧ c ≠ '/') (ha : ∀ x ∈ a, x ≠ '.' ∧ x ≠ '/')
    (hb : ∀ x ∈ b, x ≠ '.' ∧ x ≠ '/') {y m dy : Int} {left : List Byte} (h : s.saveTo d (p ++ [c] ++ '.' :: b) y m dy left = (d', .ok ())) :
    ∃ w1 shp w2 shx at' dbf, s.geometry.saveShp = .ok (w1, shp) ∧ w1.saveShx = .ok (w2, shx) ∧ s.attributes.saveDbf y m dy = .ok (at', dbf) ∧
      load d' (p ++ [c] ++ '.' :: a) = .ok (shp, shx, dbf) := by
  obtain ⟨w1, shp, w2, shx, at', dbf, h1, h2, h3, h4⟩ := C144_opens h
  refine ⟨w1, shp, w2, shx, at', dbf, h1, h2, h3, ?_⟩
  unfold load at *
  rw [root_ext hc ha]
  rwa [root_ext hc hb] at h4

example : root ['d', '.', 'x', '/', 'm', 'a', 'p', '.', '1', '.', 'a'] = ['d', '.', 'x', '/', 'm', 'a', 'p', '.', '1'] ∧
    root ['d', '.', 'x', '/', 'm', 'a', 'p'] = ['d', '.', 'x', '/', 'm', 'a', 'p'] ∧ root ['d', '/', '.', '.', 'a'] = ['d', '/', '.', '.', 'a'] := by decide

/-! ### C145 -/

/-- C145, what holds: if saving raises before a shape type is found, nothing on the disk changes; and whenever it raises, no other file than the
three does. Missing: all other exceptions, see below. -/
theorem C145_no_type_partial {s : Source D} (h0 : s.geometry.shapes = []) (ht : s.geometry.shapeType = none ∨ s.geometry.shapeType = some 0)
    (d : Disk) (target : Str) (y m dy : Int) (left : List Byte) : s.saveTo d target y m dy left = (d, .error .indexError) := by
  have hw : s.geometry.withType = .error .indexError := by simp [Writer.withType, ht, h0]
  simp only [Source.saveTo, hw, put, Except.map]

theorem C145_other_files_partial (s : Source D) (d : Disk) (target : Str) (y m dy : Int) (left : List Byte) {p : Str}
    (h : ∀ x ∈ [shpExt, shxExt, dbfExt], p ≠ root target ++ x) : (s.saveTo d target y m dy left).1 p = d p :=
  saveTo_frame s d target y m dy left (h _ (by simp)) (h _ (by simp)) (h _ (by simp))

/-- C145 fails: if a record cannot be written, the geometry on the disk is the new one, and the old attributes are gone. -/
theorem C145_attributes_violated {s : Source D} {w1 w2 : Writer D} {shp shx : List Byte} (h1 : s.geometry.saveShp = .ok (w1, shp)) (h2 : w1.saveShx = .ok (w2, shx))
    {y m dy : Int} {e : PyErr} (h3 : s.attributes.saveDbf y m dy = .error e) (d : Disk) (target : Str) (left : List Byte) :
    ∃ d', s.saveTo d target y m dy left = (d', .error e) ∧ load d' target = .ok (shp, shx, left) := by
  obtain ⟨wt, hwt⟩ : ∃ w, s.geometry.withType = .ok w := by
    obtain ⟨w, h, -⟩ := Py.bind_ok.mp h1
    exact ⟨w, h⟩
  obtain ⟨wt2, hwt2⟩ : ∃ w, w1.withType = .ok w := by
    obtain ⟨w, h, -⟩ := Py.bind_ok.mp h2
    exact ⟨w, h⟩
  have n1 : root target ++ shpExt ≠ root target ++ shxExt := ext_ne rfl (Or.inr (by decide))
  have n2 : root target ++ shpExt ≠ root target ++ dbfExt := ext_ne rfl (Or.inr (by decide))
  have n3 : root target ++ shxExt ≠ root target ++ dbfExt := ext_ne rfl (Or.inr (by decide))
  refine ⟨((d.put (root target ++ shpExt) shp).put (root target ++ shxExt) shx).put (root target ++ dbfExt) left, ?_, ?_⟩
  · simp only [Source.saveTo, hwt, h1, put, hwt2, h2, h3, Except.map]
  · simp only [load, put_same, put_other _ n1, put_other _ n2, put_other _ n3]

/-- C145 fails: if a shape cannot be written, the old shapes are gone, while the old index and the old attributes are still there. -/
theorem C145_shapes_violated {s : Source D} {e : PyErr} (h1 : s.geometry.saveShp = .error e) (ht : ∃ w, s.geometry.withType = .ok w)
    (y m dy : Int) {d : Disk} {target : Str} {shp shx dbf : List Byte} (hl : load d target = .ok (shp, shx, dbf)) (left : List Byte) :
    ∃ d', s.saveTo d target y m dy left = (d', .error e) ∧ load d' target = .ok (left, shx, dbf) := by
  obtain ⟨w, ht⟩ := ht
  have n1 : root target ++ shxExt ≠ root target ++ shpExt := ext_ne rfl (Or.inr (by decide))
  have n2 : root target ++ dbfExt ≠ root target ++ shpExt := ext_ne rfl (Or.inr (by decide))
  refine ⟨d.put (root target ++ shpExt) left, ?_, ?_⟩
  · simp only [Source.saveTo, ht, h1, put, Except.map]
  · unfold load at *
    simp only [put_same, put_other _ n1, put_other _ n2]
    split at hl
    · rename_i h2 h3 h4
      cases hl
      simp [h3, h4]
    · cases hl

/-- One point with the number 123 in a field of two characters: the shapes are saved, the attributes are not. -/
example : ∃ w1 shp w2 shx, ({ shapes := [{ shapeType := some 1, points := [[toy 1, toy 2, 0, 0]] }], shapeType := some 1 } : Writer Toy).saveShp = .ok (w1, shp) ∧
    w1.saveShx = .ok (w2, shx) ∧ Dbf.Writer.saveDbf { fields := [{ Dbf.exampleField 2 with type := ['N'] }], records := [[.int 123]] } 126 11 16 = .error .assertionError := by
  have h : (do
    let (w1, shp) ← ({ shapes := [{ shapeType := some 1, points := [[toy 1, toy 2, 0, 0]] }], shapeType := some 1 } : Writer Toy).saveShp
    let (w2, shx) ← w1.saveShx
    return shp.length + shx.length) = .ok 236 := by decide +kernel
  simp only [Py.bind_ok] at h
  obtain ⟨⟨w1, shp⟩, h1, ⟨w2, shx⟩, h2, -⟩ := h
  exact ⟨w1, shp, w2, shx, h1, h2, by decide +kernel⟩

end

end Shapefile
end Coral
