import Verif.Proofs.ShapeZ
import Verif.Props.Shapefile

/-!
# Properties of files with elevations and measures (C87, C123–C125)
-/
namespace Coral
namespace Shapefile

set_option linter.unusedSectionVars false

section
variable {D : Type} [Double D]

/-! ### C123 -/

/-- C123: the elevation and the measure of every point of a file of type POINTZ come back, those of its attributes if it has them. -/
theorem C123_point_elevations {w w' : Writer D} {shp : List Byte} (h : w.saveShp = .ok (w', shp)) (hft : fileType w = some 11)
    (shx : Option (List Byte)) (numRecords : Option Nat) :
    ∃ (r : Reader D) (outs : List (Shape D)), Reader.new shp shx numRecords = .ok r ∧ r.shp = shp ∧
      (∀ res, Shapes D r.noM r.shp 100 res ↔ res = .ok outs) ∧
      List.Forall₂ (fun s out => out.z = some [elevation s] ∧ out.m = some [measure s]) w.shapes outs := by
  refine saved_shapes h hft (fun s _ noM rest t' bs s' hty hc => ?_) shx numRecords
  rw [retype_ne (by omega)] at hty hc
  cases hty
  exact readBody_11 hc noM rest

/-- C123: the measure of every point of a file of type POINTM comes back. -/
theorem C123_point_measures {w w' : Writer D} {shp : List Byte} (h : w.saveShp = .ok (w', shp)) (hft : fileType w = some 21)
    (shx : Option (List Byte)) (numRecords : Option Nat) :
    ∃ (r : Reader D) (outs : List (Shape D)), Reader.new shp shx numRecords = .ok r ∧ r.shp = shp ∧
      (∀ res, Shapes D r.noM r.shp 100 res ↔ res = .ok outs) ∧ List.Forall₂ (fun s out => out.m = some [measure s]) w.shapes outs := by
  refine saved_shapes h hft (fun s _ noM rest t' bs s' hty hc => ?_) shx numRecords
  rw [retype_ne (by omega)] at hty hc
  cases hty
  exact readBody_21 hc noM rest

/-- C123: a point made by `point(x, y, z, m)` has the elevation `z` and the measure `m`. -/
theorem C123_point (w : Writer D) (x y z m : D) :
    ∃ s, (w.point x y z m).shapes = w.shapes ++ [s] ∧ elevation s = z ∧ measure s = some m := ⟨_, rfl, rfl, rfl⟩

/-- A point at height 7 with measure -2. -/
example : (do
    let (_, shp) ← (Writer.point { shapeType := some 11 } (toy 1) (toy 2) (toy 7) (toy (-2))).saveShp
    let (s, _) ← shapeAt (D := Toy) true shp 100
    return s) = (.ok { shapeType := some 11, points := [[toy 1, toy 2]], z := some [toy 7], m := some [some (toy (-2))] } : Py (Shape Toy)) := by decide +kernel

/-! ### C124 -/

theorem Recs.mem {w : Option Int} {n : Nat} {ss ss' : List (Shape D)} {rs : List (List Byte)} (h : Recs w n ss rs ss') {s : Shape D} (hs : s ∈ ss) :
    ∃ n r s', IsRec w n s r s' := by
  induction h with
  | nil => cases hs
  | cons hr _ ih =>
    rcases List.mem_cons.mp hs with rfl | hs
    · exact ⟨_, _, _, hr⟩
    · exact ih hs

/-- Without the attribute `z` a shape cannot be saved in a file with elevations. -/
theorem needs_z {w w' : Writer D} {shp : List Byte} (h : w.saveShp = .ok (w', shp)) {t : Int} (hft : fileType w = some t)
    (ht : Elevated t ∨ t = 18) {s : Shape D} (hs : s ∈ w.shapes) (h31 : t = 31 → s.shapeType = some 31) : ∃ zs, s.z = some zs := by
  obtain ⟨t', n, m, hd, rs, hft', -, -, -, hhd, rfl, hrecs, -, -, hhead⟩ := saveShp_ok h
  rw [hft] at hft'
  cases hft'
  obtain ⟨n', r, s', t', bs, bn, bl, hty, hc, -⟩ := hrecs.mem hs
  by_cases h' : t = 31
  · rw [h', retype_31] at hty hc
    rw [h31 h'] at hty
    cases hty
    obtain ⟨zs, _, hz, _⟩ := content_polyZ_length (Or.inr (Or.inr rfl)) hc
    exact ⟨zs, hz⟩
  · rw [retype_ne h'] at hty hc
    cases hty
    rcases ht with ht | rfl
    · obtain ⟨zs, _, hz, _⟩ := content_polyZ_length ht hc
      exact ⟨zs, hz⟩
    · obtain ⟨zs, hz, _⟩ := content_18_length hc
      exact ⟨zs, hz⟩

/-- C124 fails for everything that `poly()` makes: a line, polygon or multipatch with elevations as third coordinates can never be saved. -/
theorem C124_violated {w w1 : Writer D} {parts : List (List (List D))} {t : Int} (ht : Elevated t) (hp : w.poly parts t = .ok w1)
    (hft : fileType w1 = some t) : ∃ e, w1.saveShp = .error e := by
  obtain ⟨rings, s, rfl, hst, hz, -, -, -, -⟩ := poly_ok hp
  cases hs : Writer.saveShp { w with shapes := w.shapes ++ [s] } with
  | error e => exact ⟨e, rfl⟩
  | ok res =>
    obtain ⟨zs, hzs⟩ := needs_z (w' := res.1) (shp := res.2) hs hft (Or.inl ht) (s := s) (by simp) (fun h => by rw [hst, h])
    rw [hz] at hzs
    cases hzs

/-- The error is `AttributeError`. -/
example : (Writer.poly ({ shapeType := some 13 } : Writer Toy) [[[toy 1, toy 2, toy 3], [toy 4, toy 5, toy 6]]] 13 >>= fun w => w.saveShp) =
    .error .attributeError := by decide +kernel

/-- C124, what holds: a file whose shapes were given the attribute `z`, one elevation for each point (and a part type for each part), comes back with
points, parts, elevations and part types. Missing: the shapes that `poly()` makes have no `z`. -/
theorem C124_elevations_partial {w w' : Writer D} {shp : List Byte} (h : w.saveShp = .ok (w', shp)) {t : Int} (hft : fileType w = some t)
    (ht : Elevated t) (hc : ∀ s ∈ w.shapes, Complete t s) (shx : Option (List Byte)) (numRecords : Option Nat) :
    ∃ (r : Reader D) (outs : List (Shape D)), Reader.new shp shx numRecords = .ok r ∧ r.shp = shp ∧
      (∀ res, Shapes D r.noM r.shp 100 res ↔ res = .ok outs) ∧ List.Forall₂ (SameZ t) w.shapes outs := by
  refine saved_shapes h hft (fun s hs noM rest t' bs s' hty hcon => ?_) shx numRecords
  by_cases h31 : t = 31
  · rw [h31, retype_31] at hty hcon
    subst h31
    rw [((hc s hs).types rfl).1] at hty
    cases hty
    exact readBody_polyZ ht hcon (hc s hs) noM rest
  · rw [retype_ne h31] at hty hcon
    cases hty
    obtain ⟨out, ho, hsame⟩ := readBody_polyZ ht hcon ⟨(hc s hs).elevations, fun h => absurd h h31⟩ noM rest
    exact ⟨out, ho, hsame.type, hsame.points, hsame.parts, hsame.elevations, fun h => absurd h h31⟩

/-- A line from height 3 to height 6. -/
def exampleLine : Shape Toy :=
  { shapeType := some 13, points := [[toy 1, toy 2, toy 3, 0], [toy 4, toy 5, toy 6, 0]], parts := some [0], z := some [toy 3, toy 6] }

example : (do
    let (_, shp) ← ({ shapes := [exampleLine] } : Writer Toy).saveShp
    let (s, _) ← shapeAt (D := Toy) true shp 100
    return { s with bbox := none }) =
      (.ok { exampleLine with points := [[toy 1, toy 2], [toy 4, toy 5]] } : Py (Shape Toy)) ∧ Elevated 13 ∧ Complete 13 exampleLine :=
  ⟨by decide +kernel, Or.inl rfl, ⟨_, rfl, rfl⟩, by omega⟩

/-! ### C125 -/

theorem shapeAt_error {noM : Bool} {pre r rest : List Byte} {w : Option Int} {n : Nat} {s s' : Shape D} (h : IsRec w n s r s') {e : PyErr}
    (hb : ∀ t bs, (retype w s).shapeType = some t → content (retype w s) t = .ok (bs, s') → readBody (D := D) noM (bs ++ rest) = .error e) :
    shapeAt (D := D) noM (pre ++ (r ++ rest)) pre.length = .error e := by
  obtain ⟨t, bs, bn, bl, hty, hc, hn, hl, rfl⟩ := h
  simp only [shapeAt, List.drop_left, readShape, List.append_assoc, readBI_pack hn, readBI_pack hl, ok_bind, hb t bs hty hc]
  rfl

theorem first_error {noM : Bool} {hd : List Byte} {w : Option Int} {n : Nat} {ss ss' : List (Shape D)} {rs : List (List Byte)} (hne : ss ≠ [])
    (h : Recs w n ss rs ss') {e : PyErr}
    (hb : ∀ (s s' : Shape D) rest t bs, (retype w s).shapeType = some t → content (retype w s) t = .ok (bs, s') → readBody (D := D) noM (bs ++ rest) = .error e) :
    Shapes D noM (hd ++ rs.flatten) hd.length (.error e) := by
  cases h with
  | nil => exact absurd rfl hne
  | cons hr _ =>
    have := hr.length.1
    exact .raise (by simp; omega) (shapeAt_error hr (fun t bs => hb _ _ _ t bs))

/-- C125 fails for multipoints with elevations: a saved file with a shape in it cannot be read, `shapes()` raises `TypeError`. -/
theorem C125_violated_elevations {w w' : Writer D} {shp : List Byte} (h : w.saveShp = .ok (w', shp)) (hft : fileType w = some 18) (hne : w.shapes ≠ [])
    (shx : Option (List Byte)) (numRecords : Option Nat) :
    ∃ r : Reader D, Reader.new shp shx numRecords = .ok r ∧ ∀ res, Shapes D r.noM r.shp 100 res ↔ res = .error .typeError := by
  obtain ⟨t', n, m, hd, rs, hft', -, -, -, hhd, rfl, hrecs, -, -, hhead⟩ := saveShp_ok h
  rw [hft] at hft'
  cases hft'
  refine ⟨{ shp := hd ++ rs.flatten, shx := shx, numRecords := numRecords, measure := m }, ?_, ?_⟩
  · simp only [Reader.new, hhead, ok_bind]
    rfl
  · have hs := first_error (hd := hd) (noM := decide ((0 : D) ∈ m)) hne hrecs (e := .typeError) (fun s s' rest t bs hty hc => by
      rw [retype_ne (by omega)] at hty hc
      cases hty
      exact readBody_18 hc _ rest)
    rw [hhd] at hs
    intro res
    exact ⟨fun hr => Shapes.det hr hs, fun hr => by rw [hr]; exact hs⟩

/-- C125 fails for multipoints with measures: reading a saved file with a shape in it raises `TypeError`, or gives shapes without points. -/
theorem C125_violated_measures {w w' : Writer D} {shp : List Byte} (h : w.saveShp = .ok (w', shp)) (hft : fileType w = some 28) (hne : w.shapes ≠ [])
    (shx : Option (List Byte)) (numRecords : Option Nat) :
    ∃ r : Reader D, Reader.new shp shx numRecords = .ok r ∧
      ((∀ res, Shapes D r.noM r.shp 100 res ↔ res = .error .typeError) ∨
        ∃ outs, (∀ res, Shapes D r.noM r.shp 100 res ↔ res = .ok outs) ∧ outs.length = w.shapes.length ∧ ∀ out ∈ outs, out.points = []) := by
  obtain ⟨t', n, m, hd, rs, hft', -, -, -, hhd, rfl, hrecs, -, -, hhead⟩ := saveShp_ok h
  rw [hft] at hft'
  cases hft'
  refine ⟨{ shp := hd ++ rs.flatten, shx := shx, numRecords := numRecords, measure := m }, ?_, ?_⟩
  · simp only [Reader.new, hhead, ok_bind]
    rfl
  · show (∀ res, Shapes D (decide ((0 : D) ∈ m)) _ 100 res ↔ _) ∨ ∃ outs, (∀ res, Shapes D (decide ((0 : D) ∈ m)) _ 100 res ↔ _) ∧ _
    cases hno : decide ((0 : D) ∈ m)
    · left
      have hs := first_error (hd := hd) (noM := false) hne hrecs (e := .typeError) (fun s s' rest t bs hty hc => by
        rw [retype_ne (by omega)] at hty hc
        cases hty
        simpa using readBody_28 hc false rest)
      rw [hhd] at hs
      intro res
      exact ⟨fun hr => Shapes.det hr hs, fun hr => by rw [hr]; exact hs⟩
    · right
      obtain ⟨outs, hs, hall⟩ := hrecs.shapes_of (P := fun _ out => out.points = []) (noM := true) (fun s hs n r s' rest hr =>
        hr.read_of (fun t' bs hty hc => by
          rw [retype_ne (by omega)] at hty hc
          cases hty
          simpa using readBody_28 hc true rest)) hd
      rw [hhd] at hs
      refine ⟨outs, fun res => ⟨fun hr => Shapes.det hr hs, fun hr => by rw [hr]; exact hs⟩, hall.length_eq.symm, ?_⟩
      intro out ho
      obtain ⟨j, hj, rfl⟩ := List.mem_iff_getElem.mp ho
      exact List.Forall₂.get hall (by rw [hall.length_eq]; exact hj) hj

/-- Such files can be saved. -/
example : (Writer.point { shapeType := some 28 } (toy 1) (toy 2) 0 (toy 4)).saveShp.toOption.isSome = true ∧
    ({ shapes := [{ shapeType := some 18, points := [[toy 1, toy 2, toy 3, 0]], z := some [toy 3] }] } : Writer Toy).saveShp.toOption.isSome = true := by
  constructor <;> decide +kernel

/-! ### C87 for these types -/

theorem sum_dvd {ss : List (Shape D)} {f : Shape D → Nat} (h : ∀ s ∈ ss, 2 ∣ f s) : 2 ∣ (ss.map f).sum := by
  induction ss with
  | nil => simp
  | cons s ss ih =>
    have := ih (fun s hs => h s (by simp [hs]))
    have := h s (by simp)
    simp only [List.map_cons, List.sum_cons]
    omega

theorem sum_add {ss : List (Shape D)} (f g : Shape D → Nat) : (ss.map (fun s => f s + g s)).sum = (ss.map f).sum + (ss.map g).sum := by
  induction ss with
  | nil => simp
  | cons s ss ih => simp only [List.map_cons, List.sum_cons, ih]; omega

/-- C87 fails for every file with elevations other than points and multipatches: the measures are left out of the length. -/
theorem C87_violated_elevations {w w' : Writer D} {shp : List Byte} (h : w.saveShp = .ok (w', shp)) {t : Int} (hft : fileType w = some t)
    (ht : t = 13 ∨ t = 15 ∨ t = 18) (hne : w.shapes ≠ []) :
    ∃ (n : Nat) (m : List D), shpHeader (D := D) shp = .ok ((n : Int), t, m) ∧
      shp.length = n + (w.shapes.map (fun s => 16 + 8 * (s.z.getD []).length)).sum ∧ n < shp.length := by
  obtain ⟨t', n, m, hd, rs, hft', -, hn, -, hhd, rfl, hrecs, -, -, hhead⟩ := saveShp_ok h
  rw [hft] at hft'
  cases hft'
  have hcon : ∀ s ∈ w.shapes, ∃ bs s', content { s with shapeType := some t } t = .ok (bs, s') := by
    intro s hs
    obtain ⟨n', r, s', t', bs, bn, bl, hty, hc, -⟩ := hrecs.mem hs
    rw [retype_ne (by omega)] at hty hc
    cases hty
    exact ⟨bs, s', hc⟩
  let f : Shape D → Nat := fun s => if t = 18 then 60 + 8 * s.points.length else 68 + 4 * (s.parts.getD []).length + 24 * s.points.length
  have h1 : rs.flatten.length = (w.shapes.map (fun s => f s + (16 + 8 * (s.z.getD []).length))).sum := by
    refine hrecs.size_of (fun s hs t' bs s' hty hc => ?_)
    rw [retype_ne (by omega)] at hty hc
    cases hty
    by_cases h18 : t = 18
    · subst h18
      obtain ⟨zs, hz, hl⟩ := content_18_length hc
      simp only [f, if_true, show s.z = some zs from hz, Option.getD_some]
      have : bs.length = 68 + 8 * s.points.length + 8 * zs.length := hl
      omega
    · obtain ⟨zs, ps, hz, hp, hl⟩ := content_polyZ_length (by simp only [Elevated]; omega) hc
      have h31 : t ≠ 31 := by omega
      simp only [f, h18, if_false, show s.z = some zs from hz, show s.parts = some ps from hp, Option.getD_some]
      have : bs.length = 76 + 4 * ps.length + 0 + 24 * s.points.length + 8 * zs.length := by simpa [h31] using hl
      omega
  have h2 : sizesOf t none w.shapes = .ok (w.shapes.map f).sum := by
    refine sizesOf_of (fun s hs n => ?_) none
    obtain ⟨bs, s', hc⟩ := hcon s hs
    by_cases h18 : t = 18
    · subst h18
      refine ⟨lastParts n s, ?_⟩
      simp only [sizeOf, partsSize, boxed, parted, pointed, zed, single]
      simp [f, pure, Except.pure, ok_bind]
      omega
    · obtain ⟨zs, ps, hz, hp, hl⟩ := content_polyZ_length (by simp only [Elevated]; omega) hc
      refine ⟨lastParts n s, ?_⟩
      have hl' : lastParts n s = some ps.length := by simp only [lastParts, show s.parts = some ps from hp]
      rw [hl']
      clear hl
      simp only [f, h18, if_false, show s.parts = some ps from hp, Option.getD_some]
      have : t = 13 ∨ t = 15 := by omega
      rcases this with rfl | rfl
      all_goals
        simp [sizeOf, partsSize, boxed, parted, pointed, zed, single, hl', pure, Except.pure, ok_bind]
        omega
  have hev : 2 ∣ (w.shapes.map f).sum := sum_dvd (fun s _ => by simp only [f]; split <;> omega)
  simp only [shpFileLength, h2, ok_bind] at hn
  have hn : (100 + (w.shapes.map f).sum) / 2 = n := Except.ok.inj hn
  have hpos : 0 < (w.shapes.map (fun s => 16 + 8 * (s.z.getD []).length)).sum := by
    match w.shapes, hne with
    | s :: ss, _ => simp only [List.map_cons, List.sum_cons]; omega
  rw [sum_add] at h1
  refine ⟨n * 2, m, by rw [hhead]; rfl, ?_, ?_⟩
  · rw [List.length_append, h1, hhd]; omega
  · rw [List.length_append, h1, hhd]; omega

/-- C87, what holds for multipatches: with an elevation for each point and a part type for each part the length is right. -/
theorem C87_multipatch_partial {w w' : Writer D} {shp : List Byte} (h : w.saveShp = .ok (w', shp)) (hft : fileType w = some 31)
    (hc : ∀ s ∈ w.shapes, Complete 31 s) : ∃ m, shpHeader (D := D) shp = .ok ((shp.length : Int), 31, m) := by
  obtain ⟨t', n, m, hd, rs, hft', -, hn, -, hhd, rfl, hrecs, -, -, hhead⟩ := saveShp_ok h
  rw [hft] at hft'
  cases hft'
  have hcon : ∀ s ∈ w.shapes, ∃ bs s', content s 31 = .ok (bs, s') := by
    intro s hs
    obtain ⟨n', r, s', t', bs, bn, bl, hty, hcc, -⟩ := hrecs.mem hs
    rw [retype_31] at hty hcc
    rw [((hc s hs).types rfl).1] at hty
    cases hty
    exact ⟨bs, s', hcc⟩
  let f : Shape D → Nat := fun s => 84 + 8 * (s.parts.getD []).length + 32 * s.points.length
  have h1 : rs.flatten.length = (w.shapes.map f).sum := by
    refine hrecs.size_of (fun s hs t' bs s' hty hcc => ?_)
    rw [retype_31] at hty hcc
    rw [((hc s hs).types rfl).1] at hty
    cases hty
    obtain ⟨b0, box, parts, pt, b2, b3, b4, b5, b6, zz, zs, mm, ms, -, -, -, hp', -, -, -, -, hpt, -⟩ := content_polyZ (Or.inr (Or.inr rfl)) hcc
    obtain ⟨zs, ps, hz, hp, hl⟩ := content_polyZ_length (Or.inr (Or.inr rfl)) hcc
    obtain ⟨zs', hz', hzl⟩ := (hc s hs).elevations
    rw [hz] at hz'
    cases hz'
    simp only [if_true] at hpt hl
    have hlen := ((hc s hs).types rfl).2 ps pt hp hpt
    simp only [hpt, Option.getD_some] at hl
    simp only [f, hp, Option.getD_some]
    omega
  have h2 : sizesOf 31 none w.shapes = .ok (w.shapes.map f).sum := by
    refine sizesOf_of (fun s hs n => ?_) none
    obtain ⟨bs, s', hcc⟩ := hcon s hs
    obtain ⟨zs, ps, hz, hp, hl⟩ := content_polyZ_length (Or.inr (Or.inr rfl)) hcc
    refine ⟨lastParts n s, ?_⟩
    have hl : lastParts n s = some ps.length := by simp only [lastParts, hp]
    rw [hl]
    simp only [f, hp, Option.getD_some]
    simp [sizeOf, partsSize, boxed, parted, pointed, zed, single, hl, pure, Except.pure, ok_bind]
    omega
  have hev : 2 ∣ (w.shapes.map f).sum := sum_dvd (fun s _ => by simp only [f]; omega)
  simp only [shpFileLength, h2, ok_bind] at hn
  have hn : (100 + (w.shapes.map f).sum) / 2 = n := Except.ok.inj hn
  refine ⟨m, ?_⟩
  rw [hhead]
  congr 2
  rw [List.length_append, h1, hhd]
  omega

/-- A multipatch with one part. -/
def examplePatch : Shape Toy :=
  { exampleLine with shapeType := some 31, partTypes := some [4] }

example : (do
    let (_, shp) ← ({ shapes := [examplePatch] } : Writer Toy).saveShp
    let (n, _, _) ← shpHeader (D := Toy) shp
    let (s, _) ← shapeAt (D := Toy) true shp 100
    return (n - shp.length, { s with bbox := none })) =
      (.ok (0, { examplePatch with points := [[toy 1, toy 2], [toy 4, toy 5]] }) : Py (Int × Shape Toy)) ∧ Complete 31 examplePatch :=
  ⟨by decide +kernel, ⟨_, rfl, rfl⟩, fun _ => ⟨rfl, by rintro ps pt ⟨⟩ ⟨⟩; rfl⟩⟩

end

end Shapefile
end Coral
