import Verif.Spec.ConvertFiles
import Verif.Props.Convert
import Verif.Props.Dbf
import Verif.Props.Shapefile

/-!
# From the writer of a shapefile to the reader of a P file: C161
-/
set_option linter.unusedSectionVars false
namespace Coral
open Shapefile

section
variable {D : Type} [Double D] {F : Type} (pyFloat : List Byte → Py F)
variable {K : Type} [Field K] [LinearOrder K] [IsStrictOrderedRing K] [FloorRing K]

theorem offsetsOf_ringStarts {α β : Type} (n : Nat) {as : List (List α)} {bs : List (List β)} (h : List.Forall₂ (fun a b => a.length = b.length) as bs) :
    offsetsOf n as = ringStarts n bs := by
  induction h generalizing n with
  | nil => rfl
  | cons h _ ih => simp only [offsetsOf, ringStarts, h, ih]

/-- What `poly` made of the rings of a polygon. -/
def IsPoly (parts : List (List (List D))) (s : Shape D) : Prop :=
  s.shapeType = some 5 ∧ ∃ rings, List.Forall₂ Closes parts rings ∧ s.points = (rings.map (List.map four)).flatten ∧ s.parts = some (offsetsOf 0 rings)

theorem polys_ok {w w' : Writer D} {pss : List (List (List (List D)))} (h : w.polys pss = .ok w') :
    ∃ ss, w'.shapes = w.shapes ++ ss ∧ w'.shapeType = w.shapeType ∧ List.Forall₂ IsPoly pss ss := by
  induction pss generalizing w with
  | nil => cases h; exact ⟨[], by simp, rfl, .nil⟩
  | cons ps pss ih =>
    simp only [Writer.polys, Py.bind_ok] at h
    obtain ⟨w1, h1, h⟩ := h
    obtain ⟨rings, s, rfl, hty, -, -, hr, hp, hs⟩ := poly_ok h1
    rw [if_pos (by simp)] at hr
    obtain ⟨ss, a, b, c⟩ := ih h
    exact ⟨s :: ss, by simp [a], b, .cons ⟨hty, rings, hr, hp, hs⟩ c⟩

theorem four_take {p : List D} (h : 2 ≤ p.length) : ∃ x y, (four p).take 2 = [x, y] ∧ p[0]? = some x ∧ p[1]? = some y := by
  match p, h with
  | x :: y :: l, _ =>
    refine ⟨x, y, ?_, rfl, rfl⟩
    simp only [four]
    split <;> simp

theorem mem_right {α β : Type} {R : α → β → Prop} {as : List α} {bs : List β} (h : List.Forall₂ R as bs) {b : β} (hb : b ∈ bs) : ∃ a ∈ as, R a b := by
  induction h with
  | nil => cases hb
  | cons hr _ ih =>
    rcases List.mem_cons.mp hb with rfl | hb
    · exact ⟨_, by simp, hr⟩
    · obtain ⟨a, ha, h⟩ := ih hb
      exact ⟨a, by simp [ha], h⟩

theorem mem_closes {α : Type} {part c : List α} (h : Closes part c) {x : α} (hx : x ∈ c) : x ∈ part := by
  rcases h.2.2 with ⟨-, rfl⟩ | ⟨-, a, ha, rfl⟩
  · exact hx
  · rcases List.mem_append.mp hx with hx | hx
    · exact hx
    · rw [List.mem_singleton.mp hx]; exact List.mem_of_mem_head? ha

/-- The points of such a shape, read from a file, as longitudes and latitudes. -/
theorem points_ok (val : D → K) {parts : List (List (List D))} {s out : Shape D} (hp : ∀ part ∈ parts, ∀ p ∈ part, 2 ≤ p.length) (hne : parts ≠ [])
    (hs : IsPoly parts s) (ho : Same 5 s out) :
    ∃ rings : List (List (List D)), List.Forall₂ Closes parts rings ∧ out.points.mapM (lonLat val) = .ok (rings.map (List.map (coords val))).flatten ∧
      out.parts = some (ringStarts 0 (rings.map (List.map (coords val)))) := by
  obtain ⟨-, rings, hr, hpts, hparts⟩ := hs
  have h2 : ∀ p ∈ rings.flatten, 2 ≤ p.length := by
    intro p hpm
    obtain ⟨c, hc, hpc⟩ := List.mem_flatten.mp hpm
    obtain ⟨part, hpart, hcl⟩ := mem_right hr hc
    exact hp part hpart p (mem_closes hcl hpc)
  refine ⟨rings, hr, ?_, ?_⟩
  · rw [ho.points, hpts]
    simp only [planar]
    rw [if_neg (by decide), ← List.map_flatten, ← List.map_flatten, List.map_map, Py.mapM_ok, List.forall₂_map_left_iff, List.forall₂_map_right_iff, List.forall₂_same]
    intro p hp
    obtain ⟨x, y, e, e0, e1⟩ := four_take (h2 p hp)
    simp only [Function.comp, e, lonLat, coords, e0, e1, Option.getD_some]
  · have := ho.parts (by simp [Parted])
    rw [hparts, Option.getD_some] at this
    rw [← offsetsOf_ringStarts 0 (as := rings) (by rw [List.forall₂_map_right_iff, List.forall₂_same]; intro x _; simp)]
    cases hop : out.parts with
    | some l => rw [hop] at this; exact congrArg some this
    | none =>
      rw [hop] at this
      cases hr with
      | nil => exact absurd rfl hne
      | cons _ _ => simp [offsetsOf] at this

/-- What `sf2pf` gets from the files, and so what it writes. -/
theorem converts_iff (val : D → K) {es : List (Item D F)} {fields : List Dbf.Field} {shp dbf : List Byte} (h : SavedAs es fields shp dbf)
    (shx : Option (List Byte)) (getname : List (Dbf.Value F) → Py (List Nat)) (size : Nat) :
    ∃ rs : List (List (List (K × K))), List.Forall₂ (fun e r => ∃ rings, List.Forall₂ Closes e.parts rings ∧ r = rings.map (List.map (coords val))) es rs ∧
      ∀ file, Converts val pyFloat getname size shp dbf shx file ↔
        sf2pf ((es.zipWith (fun e r => (e.values, e.name, r)) rs).map fun e => ((e.2.2.flatten, some (ringStarts 0 e.2.2)), e.1)) getname size = .ok file := by
  obtain ⟨st, w, w', hst, hw, hsave⟩ := h.shapes
  obtain ⟨y, m, d, wd, hdbf⟩ := h.records
  obtain ⟨ss, hss, hty, hpoly⟩ := polys_ok hw
  simp only [List.nil_append] at hss
  obtain ⟨e0, es0, hes⟩ : ∃ a l, es = a :: l := List.exists_cons_of_ne_nil h.some
  have hft : fileType w = some 5 := by
    rcases hst with rfl | rfl
    · subst hes
      simp only [fileType, hty, hss]
      cases hpoly with
      | cons hp _ => simp [hp.1]
    · simp [fileType, hty]
  obtain ⟨dr, hdr, hrec⟩ := Dbf.C88_records_back_partial pyFloat hdbf h.fieldNames (by simpa using h.some) (outs := es.map Item.values) (by
    rw [List.forall₂_map_left_iff, List.forall₂_map_right_iff, List.forall₂_same]; exact h.rows)
  obtain ⟨sr, outs, hsr, -, hshapes, hsame⟩ := C84_saved_shapes_read_back hsave hft (by simp [Plain]) shx (some dr.numRecords)
  obtain ⟨dr', hdr'⟩ := hrec dr.pos
  rw [hss] at hsame
  have key : ∃ (rs : List (List (List (K × K)))), List.Forall₂ (fun (e : Item D F) r => ∃ rings, List.Forall₂ Closes e.parts rings ∧ r = rings.map (List.map (coords val))) es rs ∧
      (outs.zip (es.map Item.values)).mapM (shapeRecordOf val) =
        .ok ((es.zipWith (fun e r => (e.values, e.name, r)) rs).map fun e => ((e.2.2.flatten, some (ringStarts 0 e.2.2)), e.1)) := by
    clear hrec hdr' hsave hshapes hsr hdbf hw hss hes
    have hparts := h.parts
    have hpoints := h.points
    clear h
    induction es generalizing ss outs with
    | nil =>
      cases hpoly
      cases hsame
      exact ⟨[], .nil, rfl⟩
    | cons e es ih =>
      simp only [List.map_cons] at hpoly
      cases hpoly with
      | cons hp hpoly =>
        cases hsame with
        | cons hs hsame =>
          obtain ⟨rings, r1, r2, r3⟩ := points_ok val (hpoints e (by simp)) (hparts e (by simp)) hp hs
          obtain ⟨rs, h1, h2⟩ := ih _ hpoly _ hsame (fun e he => hparts e (by simp [he])) (fun e he => hpoints e (by simp [he]))
          refine ⟨rings.map (List.map (coords val)) :: rs, .cons ⟨rings, r1, rfl⟩ h1, ?_⟩
          simp only [List.map_cons, List.zip_cons_cons, List.mapM_cons, shapeRecordOf, r2, r3, h2, ok_bind, List.zipWith_cons_cons, pure, Except.pure]
  obtain ⟨rs, hrs, hmap⟩ := key
  have hl : dr.shapeRecords pyFloat (.ok outs) = .ok (outs.zip (es.map Item.values)) := by
    have : Dbf.Reader.records pyFloat dr = .ok (dr', es.map Item.values) := hdr'
    simp only [Dbf.Reader.shapeRecords, this, ok_bind]
    rfl
  refine ⟨rs, hrs, fun file => ⟨?_, fun hf => ⟨dr, sr, outs, _, _, hdr, hsr, (hshapes _).mpr rfl, hl, hmap, hf⟩⟩⟩
  rintro ⟨dr2, sr2, shapes, l, l', a1, a2, a3, a4, a5, a6⟩
  rw [hdr] at a1
  cases a1
  rw [hsr] at a2
  cases a2
  rw [hshapes] at a3
  cases a3
  rw [hl] at a4
  cases a4
  rw [hmap] at a5
  cases a5
  exact a6

/-! ## C161 -/

/-- C161: polygons added with `poly`, with attributes that fit their fields, saved and converted by `sf2pf`, are in the P file: the names that
`getname` gives for the attributes, in order, and for each polygon its rings (without closing points, wrapped), each coordinate within half a
quantum of the box. -/
theorem C161_shapefile_to_pf (val : D → K) {es : List (Item D F)} {fields : List Dbf.Field} {shp dbf : List Byte} (h : SavedAs es fields shp dbf)
    {shx : Option (List Byte)} {getname : List (Dbf.Value F) → Py (List Nat)} (hn : ∀ e ∈ es, getname e.values = .ok e.name ∧ ∀ b ∈ e.name, b ≠ 0)
    {size : Nat} {file : List Byte} (hc : Converts val pyFloat getname size shp dbf shx file) :
    ∃ r : PReader K, PReader.open file = .ok r ∧ r.names = es.map Item.name ∧ ∀ (i : Nat) (hi : i < es.length), ∃ q rings,
      r.bboxes[i]? = some q ∧ List.Forall₂ (StoredPart val) es[i].parts rings ∧
      ∀ pos, ∃ parts pos', r.read pos i = .ok (parts, pos') ∧ List.Forall₂ (List.Forall₂ (Near size q)) parts rings := by
  obtain ⟨rs, hrs, hiff⟩ := converts_iff pyFloat val h shx getname size
  have hlen := hrs.length_eq
  obtain ⟨r, h1, h2, h3⟩ := C113_convert_partial getname (es.zipWith (fun e r => (e.values, e.name, r)) rs) (by
      intro e he
      obtain ⟨i, hi, rfl⟩ := List.mem_iff_getElem.mp he
      rw [List.getElem_zipWith]
      exact (hn _ (List.getElem_mem _)).1) (by
      intro e he
      obtain ⟨i, hi, rfl⟩ := List.mem_iff_getElem.mp he
      rw [List.getElem_zipWith]
      exact (hn _ (List.getElem_mem _)).2) size ((hiff file).mp hc)
  refine ⟨r, h1, ?_, fun i hi => ?_⟩
  · rw [h2, List.map_zipWith]
    clear * - hrs
    induction hrs with
    | nil => rfl
    | cons _ _ ih => simp only [List.zipWith_cons_cons, List.map_cons, ih]
  · obtain ⟨q, rings, k1, k2, k3⟩ := h3 i (by rw [List.length_zipWith]; omega)
    refine ⟨q, rings, k1, ?_, k3⟩
    rw [List.getElem_zipWith] at k2
    obtain ⟨cs, c1, c2⟩ := hrs.get hi (by omega)
    simp only [List.get_eq_getElem] at c1 c2
    simp only [c2] at k2
    rw [List.forall₂_map_left_iff] at k2
    clear * - c1 k2
    generalize es[i].parts = ps at c1
    induction c1 generalizing rings with
    | nil => cases k2; exact .nil
    | cons hcl _ ih =>
      cases k2 with
      | cons a b => exact .cons ⟨_, hcl, a⟩ (ih _ b)

theorem closes_dropLast {α : Type} [DecidableEq α] {part c : List α} (h : Closes part c) : c.dropLast = opened part := by
  rcases h.2.2 with ⟨h1, rfl⟩ | ⟨h1, a, ha, rfl⟩
  · rw [opened, if_pos h1]
  · rw [opened, if_neg h1, List.dropLast_concat]

/-- Rings in range are stored as they are. -/
theorem storedPart_inRange (val : D → K) {part : List (List D)} {ring : List (K × K)} (hr : ∀ p ∈ part, InRange (coords val p)) (h : StoredPart val part ring) :
    ring = (opened part).map (coords val) := by
  obtain ⟨c, hc, w, hw, -, hor⟩ := h
  have e : w = c.map (coords val) := by
    have hm : ∀ p ∈ c, InRange (coords val p) := fun p hp => hr p (mem_closes hc hp)
    clear * - hw hm
    induction c generalizing w with
    | nil => cases hw; rfl
    | cons p c ih =>
      simp only [List.map_cons] at hw
      cases hw with
      | cons a b =>
        obtain ⟨r1, r2, r3, r4⟩ := hm p (by simp)
        rw [ih _ b (fun q hq => hm q (by simp [hq])), List.map_cons]
        congr 1
        exact Prod.ext (a.1.2.2.2 r1 r2) (a.2.2.2.2 r3 r4)
  rcases hor with ⟨-, rfl⟩ | ⟨hne, -⟩
  · rw [e, ← List.map_dropLast, closes_dropLast hc]
  · rw [e, List.head?_map, List.getLast?_map, hc.2.1] at hne
    exact absurd rfl hne

/-- C161: if all points are longitudes and latitudes in degrees, the rings are the ones given to `poly`, without their closing points. -/
theorem C161_in_range (val : D → K) {es : List (Item D F)} {fields : List Dbf.Field} {shp dbf : List Byte} (h : SavedAs es fields shp dbf)
    (hr : ∀ e ∈ es, ∀ part ∈ e.parts, ∀ p ∈ part, InRange (coords val p))
    {shx : Option (List Byte)} {getname : List (Dbf.Value F) → Py (List Nat)} (hn : ∀ e ∈ es, getname e.values = .ok e.name ∧ ∀ b ∈ e.name, b ≠ 0)
    {size : Nat} {file : List Byte} (hc : Converts val pyFloat getname size shp dbf shx file) :
    ∃ r : PReader K, PReader.open file = .ok r ∧ r.names = es.map Item.name ∧ ∀ (i : Nat) (hi : i < es.length), ∃ q,
      r.bboxes[i]? = some q ∧ ∀ pos, ∃ parts pos', r.read pos i = .ok (parts, pos') ∧
        List.Forall₂ (List.Forall₂ (Near size q)) parts (es[i].parts.map fun part => (opened part).map (coords val)) := by
  obtain ⟨r, h1, h2, h3⟩ := C161_shapefile_to_pf pyFloat val h hn hc
  refine ⟨r, h1, h2, fun i hi => ?_⟩
  obtain ⟨q, rings, k1, k2, k3⟩ := h3 i hi
  have e : rings = es[i].parts.map fun part => (opened part).map (coords val) := by
    have hr' := hr es[i] (List.getElem_mem hi)
    clear * - hr' k2
    generalize es[i].parts = parts at hr' k2
    induction k2 with
    | nil => rfl
    | cons a _ ih =>
      rw [storedPart_inRange val (hr' _ (by simp)) a, ih (fun p hp => hr' p (by simp [hp])), List.map_cons]
  rw [← e]
  exact ⟨q, k1, k3⟩

/-- C161: and the conversion does succeed, if moreover the names are ASCII and each ring, without its closing point, has extent in both directions. -/
theorem C161_converts (val : D → K) {es : List (Item D F)} {fields : List Dbf.Field} {shp dbf : List Byte} (h : SavedAs es fields shp dbf)
    (hr : ∀ e ∈ es, ∀ part ∈ e.parts, (∀ p ∈ part, InRange (coords val p)) ∧ PosExtent ((opened part).map (coords val)))
    (shx : Option (List Byte)) {getname : List (Dbf.Value F) → Py (List Nat)} (hn : ∀ e ∈ es, getname e.values = .ok e.name ∧ ∀ b ∈ e.name, b < 128)
    {size : Nat} (hs : size = 1 ∨ size = 2 ∨ size = 4 ∨ size = 8) : ∃ file, Converts val pyFloat getname size shp dbf shx file := by
  obtain ⟨rs, hrs, hiff⟩ := converts_iff pyFloat val h shx getname size
  have hlen := hrs.length_eq
  have at_ : ∀ e ∈ es.zipWith (fun e r => (e.values, e.name, r)) rs, ∃ i ∈ es, ∃ cs, e = (i.values, i.name, cs.map (List.map (coords val))) ∧ List.Forall₂ Closes i.parts cs := by
    intro e he
    obtain ⟨i, hi, rfl⟩ := List.mem_iff_getElem.mp he
    rw [List.length_zipWith] at hi
    obtain ⟨cs, c1, c2⟩ := hrs.get (i := i) (by omega) (by omega)
    simp only [List.get_eq_getElem] at c1 c2
    exact ⟨_, List.getElem_mem _, cs, by rw [List.getElem_zipWith, c2], c1⟩
  obtain ⟨file, hf⟩ := C113_works_partial getname (es.zipWith (fun e r => (e.values, e.name, r)) rs) (by
      intro e he
      obtain ⟨i, hi, cs, rfl, -⟩ := at_ e he
      exact (hn i hi).1) hs (by
      intro e he
      obtain ⟨i, hi, cs, rfl, -⟩ := at_ e he
      exact (hn i hi).2) (by
      intro e he
      obtain ⟨i, hi, cs, rfl, hcl⟩ := at_ e he
      intro hnil
      simp only [List.map_eq_nil_iff] at hnil
      subst hnil
      have := hcl.length_eq
      exact h.parts i hi (by simpa using this)) (by
      intro e he poly hpoly p hp
      obtain ⟨i, hi, cs, rfl, hcl⟩ := at_ e he
      obtain ⟨c, hc, rfl⟩ := List.mem_map.mp hpoly
      obtain ⟨x, hx, rfl⟩ := List.mem_map.mp hp
      obtain ⟨part, hpart, hcl⟩ := mem_right hcl hc
      exact ((hr i hi part hpart).1 x (mem_closes hcl hx)).2.2.2) (by
      intro e he poly hpoly
      obtain ⟨i, hi, cs, rfl, hcl⟩ := at_ e he
      obtain ⟨c, hc, rfl⟩ := List.mem_map.mp hpoly
      obtain ⟨part, hpart, hcl⟩ := mem_right hcl hc
      refine ⟨by simpa using hcl.1, fun ring hring => ?_⟩
      rw [storedPart_inRange val (hr i hi part hpart).1 ⟨c, hcl, hring⟩]
      exact (hr i hi part hpart).2)
  exact ⟨file, (hiff file).mpr hf⟩

end

/-! A case: two polygons, the first with two rings of which one is given closed, and two fields. -/

/-- The two polygons and their attributes. -/
def exampleItems : List (Item Toy Unit) :=
  [{ parts := [[[toy 0, toy 0], [toy 9, toy 0], [toy 9, toy 5]], [[toy 1, toy 1], [toy 2, toy 1], [toy 2, toy 3], [toy 1, toy 1]]]
     attrs := [.text ['A', 'b'], .int 7], values := [.text ['A', 'b'], .int 7], name := [65, 98] },
   { parts := [[[toy (-20), toy (-30), toy 5], [toy (-10), toy (-30)], [toy (-10), toy 3]]]
     attrs := [.text ['C'], .int (-12)], values := [.text ['C'], .int (-12)], name := [67] }]

/-- Their fields. -/
def exampleFields : List Dbf.Field :=
  [{ name := ['a', 'b'], type := ['C'], size := 10, deci := 0 }, { name := ['n'], type := ['N'], size := 5, deci := 0 }]

/-- The name is the first attribute. -/
def exampleName : List (Dbf.Value Unit) → Py (List Nat)
  | .text s :: _ => .ok (s.map Char.toNat)
  | _ => .error .typeError

theorem exists_of_isOk {α : Type} {x : Py α} (h : x.isOk = true) : ∃ a, x = .ok a := by
  cases x with
  | ok a => exact ⟨a, rfl⟩
  | error e => cases h

example : (∃ shp dbf, SavedAs exampleItems exampleFields shp dbf) ∧
    (∀ e ∈ exampleItems, exampleName e.values = .ok e.name ∧ ∀ b ∈ e.name, b < 128 ∧ b ≠ 0) ∧
    ∀ e ∈ exampleItems, ∀ part ∈ e.parts, (∀ p ∈ part, InRange (coords (fun t : Toy => (t.1 : ℚ)) p)) ∧
      PosExtent ((opened part).map (coords (fun t : Toy => (t.1 : ℚ)))) := by
  refine ⟨?_, by decide +kernel, by simp only [InRange, PosExtent]; decide +kernel⟩
  obtain ⟨⟨w', shp⟩, h1⟩ := exists_of_isOk (x := Writer.polys ({} : Writer Toy) (exampleItems.map Item.parts) >>= Writer.saveShp) (by decide +kernel)
  obtain ⟨w, h1, h2⟩ := Py.bind_ok.mp h1
  obtain ⟨⟨wd, dbf⟩, h3⟩ := exists_of_isOk (x := Dbf.Writer.saveDbf { fields := exampleFields, records := exampleItems.map Item.attrs } 126 11 16) (by decide +kernel)
  refine ⟨shp, dbf, ⟨none, w, w', .inl rfl, h1, h2⟩, ⟨_, _, _, wd, h3⟩, by simp only [Dbf.Ascii]; decide +kernel, ?_, by decide, by decide +kernel, by decide +kernel⟩
  intro e he
  have t : Dbf.Textual { name := ['a', 'b'], type := ['C'], size := 10, deci := 0 } := ⟨'C', rfl, by decide, by decide, by decide, by decide⟩
  simp only [exampleItems, List.mem_cons, List.not_mem_nil, or_false] at he
  rcases he with rfl | rfl
  · exact .cons (.text t (by decide) (by simp only [Dbf.Ascii]; decide) (by decide) (by decide)) (.cons (.int ⟨rfl, rfl⟩ (by decide +kernel)) .nil)
  · exact .cons (.text t (by decide) (by simp only [Dbf.Ascii]; decide) (by decide) (by decide)) (.cons (.int ⟨rfl, rfl⟩ (by decide +kernel)) .nil)

end Coral
