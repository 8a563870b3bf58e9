import Verif.Proofs.Shapefile
import Verif.Spec.ShapeZ

/-!
# Proofs about shapes with elevations and measures
-/
namespace Coral
namespace Shapefile

set_option linter.unusedSectionVars false

section
variable {D : Type} [Double D]

/-- What is written for a line, polygon or multipatch with elevations. -/
theorem content_polyZ {s s' : Shape D} {t : Int} {bs : List Byte} (ht : Elevated t) (h : content s t = .ok (bs, s')) :
    ∃ (b0 : List Byte) (box : List D) (parts pt : List Int) (b2 b3 : List Byte) (b4 b5 b6 : List (List Byte)) (zz zs mm ms : List D),
      packI t = .ok b0 ∧ box.length = 4 ∧ bboxOf [s] = .ok box ∧ s.parts = some parts ∧
      packI parts.length = .ok b2 ∧ packI s.points.length = .ok b3 ∧ parts.mapM packI = .ok b4 ∧ pt.mapM packI = .ok b5 ∧
      (if t = 31 then s.partTypes = some pt else pt = []) ∧ s.points.mapM packPoint = .ok b6 ∧ zz.length = 2 ∧ s.z = some zs ∧
      mm.length = 2 ∧ s.points.map (fun p => p[3]?) = ms.map some ∧ ms.length = s.points.length ∧
      bs = b0 ++ (encAll box ++ (b2 ++ (b3 ++ (b4.flatten ++ (b5.flatten ++ (b6.flatten ++ (encAll zz ++ (encAll zs ++ (encAll mm ++ encAll ms))))))))) ∧
      s' = s := by
  rcases ht with rfl | rfl | rfl
  iterate 2
    · simp [content, body, writeIf, changeIf, boxed, parted, pointed, zed, measured, single, Py.bind_ok, packAll] at h
      obtain ⟨b0, h0, box, h1, parts, hp, b2, h2, b3, h3, parts', hp', b4, h4, b6, h6, zz, hz, zs, hzs, mm, h7, b8, h8, rfl, rfl⟩ := h
      have := (attr_ok hp).symm.trans (attr_ok hp')
      cases this
      obtain ⟨ms, hm1, hm2, hm3⟩ := packMs_ok h8
      exact ⟨b0, box, parts, [], b2, b3, b4, [], b6, zz, zs, mm, ms, h0, bboxOf_length h1, h1, attr_ok hp, h2, h3, h4, rfl, by simp, h6,
        zboxOf_length hz, attr_ok hzs, mboxOf_length h7, hm1, hm3, by simp [hm2], rfl⟩
  · simp [content, body, writeIf, changeIf, boxed, parted, pointed, zed, measured, single, Py.bind_ok, packAll] at h
    obtain ⟨b0, h0, box, h1, parts, hp, b2, h2, b3, h3, parts', hp', b4, h4, pt, hpt, b5, h5, b6, h6, zz, hz, zs, hzs, mm, h7, b8, h8, rfl, rfl⟩ := h
    have := (attr_ok hp).symm.trans (attr_ok hp')
    cases this
    obtain ⟨ms, hm1, hm2, hm3⟩ := packMs_ok h8
    exact ⟨b0, box, parts, pt, b2, b3, b4, b5, b6, zz, zs, mm, ms, h0, bboxOf_length h1, h1, attr_ok hp, h2, h3, h4, h5, by simpa using attr_ok hpt, h6,
      zboxOf_length hz, attr_ok hzs, mboxOf_length h7, hm1, hm3, by simp [hm2], rfl⟩

theorem readBody_polyZ {s s' : Shape D} {t : Int} {bs : List Byte} (ht : Elevated t) (h : content s t = .ok (bs, s')) (hc : Complete t s)
    (noM : Bool) (rest : List Byte) : ∃ out, readBody noM (bs ++ rest) = .ok out ∧ SameZ t s out := by
  obtain ⟨b0, box, parts, pt, b2, b3, b4, b5, b6, zz, zs, mm, ms, h0, hb, hbox, hp, h2, h3, h4, h5, hpt, h6, hz, hzs, hm, hms, hml, rfl, -⟩ := content_polyZ ht h
  obtain ⟨zs', hzs', hzl⟩ := hc.elevations
  rw [hzs] at hzs'
  cases hzs'
  simp only [readBody, List.append_assoc, readI_pack h0, ok_bind]
  have e4 := readDs_enc' hb
  have hne := bboxOf_ne_nil hbox
  have eP : truthy (some (s.points.length : Int)) := by simp [truthy, hne]
  have hparts : ∃ o, o.getD [] = parts ∧ ∀ r, (if truthy (some (parts.length : Int)) then
      (fun a : List Int × List Byte => (some a.1, a.2)) <$> readParts (some (parts.length : Int)) (b4.flatten ++ r)
      else Except.ok (none, b4.flatten ++ r)) = .ok (o, r) := by
    by_cases hz : parts = []
    · subst hz; cases h4; exact ⟨none, rfl, fun r => rfl⟩
    · have : truthy (some (parts.length : Int)) := by simp [truthy, hz]
      refine ⟨some parts, rfl, fun r => ?_⟩
      simp [this, readParts, count, ok_bind, readIs_pack h4]
  obtain ⟨o, ho, hparts⟩ := hparts
  have eZ : ∀ r, readRange (D := D) (some (s.points.length : Int)) (encAll zz ++ (encAll zs ++ r)) = .ok (zs, r) := by
    intro r
    simp [readRange, readDs_enc' hz, count, ok_bind, readDs_enc' hzl]
  have eM : ∀ r, readRange (D := D) (some (s.points.length : Int)) (encAll mm ++ (encAll ms ++ r)) = .ok (ms, r) := by
    intro r
    simp [readRange, readDs_enc' hm, count, ok_bind, readDs_enc' hml]
  rcases ht with rfl | rfl | rfl
  iterate 2
    · simp at hpt
      subst hpt
      cases h5
      cases noM
      · simp [readIf, boxed, parted, pointed, zed, measured, single, e4, readI_pack h2, readI_pack h3, ok_bind, hparts, eP, readPoints_pack h6, eZ, eM]
        exact ⟨rfl, rfl, by simp [ho, hp], by simp [hzs], by simp⟩
      · simp [readIf, boxed, parted, pointed, zed, measured, single, e4, readI_pack h2, readI_pack h3, ok_bind, hparts, eP, readPoints_pack h6, eZ]
        exact ⟨rfl, rfl, by simp [ho, hp], by simp [hzs], by simp⟩
  · simp at hpt
    have hl := (hc.types rfl).2 parts pt hp hpt
    have eT : ∀ r, readParts (some (parts.length : Int)) (b5.flatten ++ r) = .ok (pt, r) := by
      intro r
      rw [← hl]
      simp [readParts, count, ok_bind, readIs_pack h5]
    cases noM
    · simp [readIf, boxed, parted, pointed, zed, measured, single, e4, readI_pack h2, readI_pack h3, ok_bind, hparts, eP, readPoints_pack h6, eZ, eM, eT]
      exact ⟨rfl, rfl, by simp [ho, hp], by simp [hzs], by simp [hpt]⟩
    · simp [readIf, boxed, parted, pointed, zed, measured, single, e4, readI_pack h2, readI_pack h3, ok_bind, hparts, eP, readPoints_pack h6, eZ, eT]
      exact ⟨rfl, rfl, by simp [ho, hp], by simp [hzs], by simp [hpt]⟩

/-- What holds of every record that is read holds of the whole file. -/
theorem Recs.shapes_of {w : Option Int} {P : Shape D → Shape D → Prop} {noM : Bool} {n : Nat} {ss ss' : List (Shape D)} {rs : List (List Byte)}
    (h : Recs w n ss rs ss') (hread : ∀ s ∈ ss, ∀ n r s' rest, IsRec w n s r s' → ∃ out l, readShape noM (r ++ rest) = .ok (out, l) ∧ P s out)
    (pre : List Byte) : ∃ outs, Shapes D noM (pre ++ rs.flatten) pre.length (.ok outs) ∧ List.Forall₂ P ss outs := by
  induction h generalizing pre with
  | nil => exact ⟨[], .done (by simp), .nil⟩
  | cons hr _ ih =>
    rename_i r _ _ rs _ _
    obtain ⟨out, l, hrd, hsame⟩ := hread _ (by simp) _ r _ rs.flatten hr
    have hl := hr.next noM rs.flatten hrd
    obtain ⟨outs, hsh, hall⟩ := ih (fun s hs => hread s (by simp [hs])) (pre ++ r)
    refine ⟨out :: outs, ?_, .cons hsame hall⟩
    have hpos := hr.length.1
    have hat := shapeAt_at (pre := pre) hrd hl
    have : Shapes D noM (pre ++ (r ++ rs.flatten)) (pre.length + r.length) (.ok outs) := by
      simpa using hsh
    exact .next (by simp; omega) hat this

/-- Reading a record is reading its content. -/
theorem IsRec.read_of {w : Option Int} {n : Nat} {s s' : Shape D} {r : List Byte} (h : IsRec w n s r s') {P : Shape D → Prop} {noM : Bool}
    {rest : List Byte}
    (hb : ∀ t bs, (retype w s).shapeType = some t → content (retype w s) t = .ok (bs, s') → ∃ out, readBody noM (bs ++ rest) = .ok out ∧ P out) :
    ∃ out l, readShape noM (r ++ rest) = .ok (out, l) ∧ P out := by
  obtain ⟨t, bs, bn, bl, hty, hc, hn, hl, rfl⟩ := h
  obtain ⟨out, ho, hp⟩ := hb t bs hty hc
  refine ⟨out, (bs.length / 2 : Nat), ?_, hp⟩
  simp only [readShape, List.append_assoc, readBI_pack hn, readBI_pack hl, ok_bind, ho]
  rfl

/-! ### Sizes -/

/-- The length of a record of a line or polygon with elevations. -/
theorem content_polyZ_length {s s' : Shape D} {t : Int} {bs : List Byte} (ht : Elevated t) (h : content s t = .ok (bs, s')) :
    ∃ zs parts, s.z = some zs ∧ s.parts = some parts ∧ bs.length = 76 + 4 * parts.length + (if t = 31 then 4 * (s.partTypes.getD []).length else 0) +
      24 * s.points.length + 8 * zs.length := by
  obtain ⟨b0, box, parts, pt, b2, b3, b4, b5, b6, zz, zs, mm, ms, h0, hb, hbox, hp, h2, h3, h4, h5, hpt, h6, hz, hzs, hm, hms, hml, rfl, -⟩ := content_polyZ ht h
  refine ⟨zs, parts, hzs, hp, ?_⟩
  have l5 := packIs_length h5
  simp only [List.length_append, packI_length h0, packI_length h2, packI_length h3, encAll_length, packIs_length h4, packPoints_length h6, hb, hz, hm, hml]
  by_cases h31 : t = 31
  · simp only [h31, if_true] at hpt ⊢
    rw [l5, hpt, Option.getD_some]
    omega
  · simp only [h31, if_false] at hpt ⊢
    subst hpt
    rw [l5]
    simp only [List.length_nil]
    omega

/-- What is written for a multipoint with elevations. -/
theorem content_18 {s s' : Shape D} {bs : List Byte} (h : content s 18 = .ok (bs, s')) :
    ∃ (b0 : List Byte) (box zz zs mm ms : List D), packI 18 = .ok b0 ∧ box.length = 4 ∧ zz.length = 2 ∧ s.z = some zs ∧ mm.length = 2 ∧
      ms.length = s.points.length ∧ bs = b0 ++ (encAll box ++ (encAll zz ++ (encAll zs ++ (encAll mm ++ encAll ms)))) := by
  simp [content, body, writeIf, changeIf, boxed, parted, pointed, zed, measured, single, Py.bind_ok] at h
  obtain ⟨b0, h0, box, h1, zz, hz, zs, hzs, mm, h7, b8, h8, rfl, rfl⟩ := h
  obtain ⟨ms, hm1, hm2, hm3⟩ := packMs_ok h8
  exact ⟨b0, box, zz, zs, mm, ms, h0, bboxOf_length h1, zboxOf_length hz, attr_ok hzs, mboxOf_length h7, hm3, by simp [hm2]⟩

/-- What is written for a multipoint with measures. -/
theorem content_28' {s s' : Shape D} {bs : List Byte} (h : content s 28 = .ok (bs, s')) :
    ∃ (b0 : List Byte) (box mm ms : List D), packI 28 = .ok b0 ∧ box.length = 4 ∧ mm.length = 2 ∧
      ms.length = s.points.length ∧ bs = b0 ++ (encAll box ++ (encAll mm ++ encAll ms)) := by
  simp [content, body, writeIf, changeIf, boxed, parted, pointed, zed, measured, single, Py.bind_ok] at h
  obtain ⟨b0, h0, box, h1, mm, h7, b8, h8, rfl, rfl⟩ := h
  obtain ⟨ms, hm1, hm2, hm3⟩ := packMs_ok h8
  exact ⟨b0, box, mm, ms, h0, bboxOf_length h1, mboxOf_length h7, hm3, by simp [hm2]⟩

theorem content_18_length {s s' : Shape D} {bs : List Byte} (h : content s 18 = .ok (bs, s')) :
    ∃ zs, s.z = some zs ∧ bs.length = 68 + 8 * s.points.length + 8 * zs.length := by
  obtain ⟨b0, box, zz, zs, mm, ms, h0, hb, hz, hzs, hm, hml, rfl⟩ := content_18 h
  refine ⟨zs, hzs, ?_⟩
  simp only [List.length_append, packI_length h0, encAll_length, hb, hz, hm, hml]
  omega

/-- Reading a multipoint with elevations. -/
theorem readBody_18 {s s' : Shape D} {bs : List Byte} (h : content s 18 = .ok (bs, s')) (noM : Bool) (rest : List Byte) :
    readBody (D := D) noM (bs ++ rest) = .error .typeError := by
  obtain ⟨b0, box, zz, zs, mm, ms, h0, hb, hz, hzs, hm, hml, rfl⟩ := content_18 h
  simp only [readBody, List.append_assoc, readI_pack h0, ok_bind]
  have e4 := readDs_enc' hb
  have eZ : ∀ r, readRange (D := D) none (encAll zz ++ r) = .error .typeError := by
    intro r
    simp [readRange, readDs_enc' hz, ok_bind]
  simp [readIf, boxed, parted, pointed, zed, e4, ok_bind, truthy, eZ]
  rfl

/-- Reading a multipoint with measures. -/
theorem readBody_28 {s s' : Shape D} {bs : List Byte} (h : content s 28 = .ok (bs, s')) (noM : Bool) (rest : List Byte) :
    if noM then ∃ out : Shape D, readBody noM (bs ++ rest) = .ok out ∧ out.points = []
    else readBody (D := D) noM (bs ++ rest) = .error .typeError := by
  obtain ⟨b0, box, mm, ms, h0, hb, hm, hml, rfl⟩ := content_28' h
  simp only [readBody, List.append_assoc, readI_pack h0, ok_bind]
  have e4 := readDs_enc' hb
  have eZ : ∀ r, readRange (D := D) none (encAll mm ++ r) = .error .typeError := by
    intro r
    simp [readRange, readDs_enc' hm, ok_bind]
  cases noM
  · simp [readIf, boxed, parted, pointed, zed, measured, e4, ok_bind, truthy, eZ]
    rfl
  · simp [readIf, boxed, parted, pointed, zed, measured, single, e4, ok_bind, truthy]

/-! ### Single points -/

theorem pointZ_value {s s' : Shape D} {b : List Byte} {x y : D} {q : List D} {ps : List (List D)} (hp : s.points = (x :: y :: q) :: ps)
    (h : pointZ s = .ok (b, s')) : b = encAll [elevation s] ∧ measure s' = measure s ∧ ∃ q', s'.points = (x :: y :: q') :: ps := by
  simp only [pointZ, hp] at h
  split at h
  · rename_i hz
    cases h
    exact ⟨by simp [encAll, elevation, hz], by simp [measure, hp], q, rfl⟩
  · rename_i v _ hz
    cases h
    exact ⟨by simp [encAll, elevation, hz], rfl, q, hp⟩
  · rename_i hz
    match q with
    | [] =>
      cases h
      exact ⟨by simp [encAll, elevation, hz, hp], by simp [measure, hp], [0], by simp⟩
    | c :: q =>
      have : ¬ (x :: y :: c :: q).length < 3 := by simp
      rw [if_neg this] at h
      cases h
      exact ⟨by simp [encAll, elevation, hz, hp], by simp [measure, hp], c :: q, by simp⟩

theorem pointM_value {s s' : Shape D} {b : List Byte} {x y : D} {q : List D} {ps : List (List D)} (hp : s.points = (x :: y :: q) :: ps)
    (h : pointM s = .ok (b, s')) : ∃ v, measure s = some v ∧ b = encAll [v] := by
  simp only [pointM, hp] at h
  split at h
  · rename_i hm
    cases h
    exact ⟨0, by simp [measure, hm], by simp [encAll]⟩
  · rename_i v _ hm
    cases h
    exact ⟨v, by simp [measure, hm], by simp [encAll]⟩
  · cases h
  · rename_i hm
    match q with
    | [] => cases h
    | [c] =>
      cases h
      exact ⟨0, by simp [measure, hm, hp], by simp [encAll]⟩
    | c :: d :: q =>
      have : ¬ (x :: y :: c :: d :: q).length < 4 := by simp
      rw [if_neg this] at h
      cases h
      exact ⟨d, by simp [measure, hm, hp], by simp [encAll]⟩

/-- Reading a point with elevation. -/
theorem readBody_11 {s s' : Shape D} {bs : List Byte} (h : content s 11 = .ok (bs, s')) (noM : Bool) (rest : List Byte) :
    ∃ out : Shape D, readBody noM (bs ++ rest) = .ok out ∧ out.z = some [elevation s] ∧ out.m = some [measure s] := by
  simp [-bind_pure_comp, content, body, writeIf, changeIf, boxed, parted, pointed, zed, measured, single, Py.bind_ok] at h
  obtain ⟨b0, h0, b1, h1, b2, s1, h2, b3, s2, h3, h⟩ := h
  obtain ⟨rfl, rfl⟩ := h
  obtain ⟨x, y, q, ps, hp, rfl⟩ := packFirst_ok h1
  obtain ⟨rfl, hmz, q', hp'⟩ := pointZ_value hp h2
  obtain ⟨v, hv, rfl⟩ := pointM_value hp' h3
  rw [← hmz, hv]
  have e2 := readDs_enc' (n := 2) (l := [x, y]) rfl
  have e1 := fun (d : D) => readDs_enc' (n := 1) (l := [d]) rfl
  simp only [readBody, List.append_assoc, readI_pack h0, ok_bind]
  simp [readIf, boxed, parted, pointed, zed, measured, single, e2, e1, ok_bind, truthy]

/-- Reading a point with a measure. -/
theorem readBody_21 {s s' : Shape D} {bs : List Byte} (h : content s 21 = .ok (bs, s')) (noM : Bool) (rest : List Byte) :
    ∃ out : Shape D, readBody noM (bs ++ rest) = .ok out ∧ out.m = some [measure s] := by
  simp [-bind_pure_comp, content, body, writeIf, changeIf, boxed, parted, pointed, zed, measured, single, Py.bind_ok] at h
  obtain ⟨b0, h0, b1, h1, b3, s2, h3, h⟩ := h
  obtain ⟨rfl, rfl⟩ := h
  obtain ⟨x, y, q, ps, hp, rfl⟩ := packFirst_ok h1
  obtain ⟨v, hv, rfl⟩ := pointM_value hp h3
  rw [hv]
  have e2 := readDs_enc' (n := 2) (l := [x, y]) rfl
  have e1 := fun (d : D) => readDs_enc' (n := 1) (l := [d]) rfl
  simp only [readBody, List.append_assoc, readI_pack h0, ok_bind]
  simp [readIf, boxed, parted, pointed, zed, measured, single, e2, e1, ok_bind, truthy]

/-! ### Files -/

/-- The shapes of a saved file, given what reading each of its records gives. -/
theorem saved_shapes {w w' : Writer D} {shp : List Byte} (h : w.saveShp = .ok (w', shp)) {t : Int} (hft : fileType w = some t)
    {P : Shape D → Shape D → Prop}
    (hread : ∀ s ∈ w.shapes, ∀ noM rest t' bs s', (retype (some t) s).shapeType = some t' → content (retype (some t) s) t' = .ok (bs, s') →
      ∃ out, readBody noM (bs ++ rest) = .ok out ∧ P s out) (shx : Option (List Byte)) (numRecords : Option Nat) :
    ∃ (r : Reader D) (outs : List (Shape D)), Reader.new shp shx numRecords = .ok r ∧ r.shp = shp ∧
      (∀ res, Shapes D r.noM r.shp 100 res ↔ res = .ok outs) ∧ List.Forall₂ P w.shapes outs := by
  obtain ⟨t', n, m, hd, rs, hft', -, -, -, hhd, rfl, hrecs, -, -, hhead⟩ := saveShp_ok h
  rw [hft] at hft'
  cases hft'
  refine ⟨{ shp := hd ++ rs.flatten, shx := shx, numRecords := numRecords, measure := m }, ?_⟩
  obtain ⟨outs, hs, hall⟩ := hrecs.shapes_of (P := P) (noM := decide ((0 : D) ∈ m)) (fun s hs n r s' rest hr =>
    hr.read_of (fun t' bs hty hc => hread s hs _ rest t' bs s' hty hc)) hd
  rw [hhd] at hs
  refine ⟨outs, ?_, rfl, ?_, hall⟩
  · simp only [Reader.new, hhead, ok_bind]
    rfl
  · intro res
    exact ⟨fun hr => Shapes.det hr hs, fun hr => by rw [hr]; exact hs⟩

theorem retype_ne {t : Int} (h : t ≠ 31) (s : Shape D) : retype (some t) s = { s with shapeType := some t } := by simp [retype, h]

theorem retype_31 (s : Shape D) : retype (some 31) s = s := by simp [retype]

/-- Sizes of the records of a file, given the size of each. -/
theorem Recs.size_of {w : Option Int} {n : Nat} {ss ss' : List (Shape D)} {rs : List (List Byte)} (h : Recs w n ss rs ss') {f : Shape D → Nat}
    (hsize : ∀ s ∈ ss, ∀ t bs s', (retype w s).shapeType = some t → content (retype w s) t = .ok (bs, s') → 8 + bs.length = f s) :
    rs.flatten.length = (ss.map f).sum := by
  induction h with
  | nil => rfl
  | cons hr _ ih =>
    obtain ⟨t', bs, bn, bl, hty, hc, hn, hl, rfl⟩ := hr
    have := hsize _ (by simp) _ _ _ hty hc
    simp only [List.flatten_cons, List.length_append, packBI_length hn, packBI_length hl, ih (fun s hs => hsize s (by simp [hs])), List.map_cons, List.sum_cons]
    omega

theorem sizesOf_of {t : Int} {ss : List (Shape D)} {f : Shape D → Nat} (h : ∀ s ∈ ss, ∀ n, ∃ n', sizeOf t n s = .ok (f s, n')) (n : Option Nat) :
    sizesOf t n ss = .ok (ss.map f).sum := by
  induction ss generalizing n with
  | nil => rfl
  | cons s ss ih =>
    obtain ⟨n', hn⟩ := h s (by simp) n
    simp only [sizesOf, hn, ok_bind, ih (fun s hs => h s (by simp [hs])), List.map_cons, List.sum_cons]
    rfl

end

end Shapefile
end Coral
