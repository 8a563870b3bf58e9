import Verif.Spec.Shapefile
import Verif.PyList
import Mathlib.Tactic.Common
import Mathlib.Data.List.Basic

/-!
# Proofs about the geometry files
-/
namespace Coral
namespace Shapefile

set_option linter.unusedSectionVars false

theorem ok_bind {α β : Type} (a : α) (f : α → Py β) : ((Except.ok a : Py α) >>= f) = f a := rfl

/-! ### Integers -/

theorem packI_ok {v : Int} {b : List Byte} (h : packI v = .ok b) :
    -2147483648 ≤ v ∧ v ≤ 2147483647 ∧ b = leBytes 4 (v % 4294967296).toNat := by
  simp only [packI] at h
  split at h
  · rename_i hv
    exact ⟨hv.1, hv.2, (Except.ok.inj h).symm⟩
  · cases h

theorem packI_of {v : Int} (h : -2147483648 ≤ v) (h' : v ≤ 2147483647) :
    packI v = .ok (leBytes 4 (v % 4294967296).toNat) := by
  simp only [packI, h, h', and_self, if_true]

theorem leBytes_length (n v : Nat) : (leBytes n v).length = n := by simp [leBytes, beBytes_length]

theorem packI_length {v : Int} {b : List Byte} (h : packI v = .ok b) : b.length = 4 := by
  rw [(packI_ok h).2.2, leBytes_length]

theorem signed_pack {v : Int} {b : List Byte} (h : packI v = .ok b) : signed b = v := by
  obtain ⟨h1, h2, rfl⟩ := packI_ok h
  simp only [signed, leVal, leBytes, List.reverse_reverse, beVal_beBytes]
  have : (256 : Nat) ^ 4 = 4294967296 := by decide
  rw [this]
  split <;> omega

theorem packBI_ok {v : Int} {b : List Byte} (h : packBI v = .ok b) : packI v = .ok b.reverse := by
  simp only [packBI, Py.bind_ok] at h
  obtain ⟨a, h, h'⟩ := h
  rw [h, ← Except.ok.inj h', List.reverse_reverse]

theorem packBI_length {v : Int} {b : List Byte} (h : packBI v = .ok b) : b.length = 4 := by
  simpa using packI_length (packBI_ok h)

theorem packBI_of {v : Int} (h : -2147483648 ≤ v) (h' : v ≤ 2147483647) : ∃ b, packBI v = .ok b := by
  simp only [packBI, packI_of h h']
  exact ⟨_, rfl⟩

theorem readI_pack {v : Int} {b : List Byte} (h : packI v = .ok b) (rest : List Byte) : readI (b ++ rest) = .ok (v, rest) := by
  have := packI_length h
  rw [readI, if_pos (by simp [this]), List.take_left' this, List.drop_left' this, signed_pack h]

theorem readBI_pack {v : Int} {b : List Byte} (h : packBI v = .ok b) (rest : List Byte) : readBI (b ++ rest) = .ok (v, rest) := by
  have := packBI_length h
  rw [readBI, if_pos (by simp [this]), List.take_left' this, List.drop_left' this, signed_pack (packBI_ok h)]

section
variable {D : Type} [Double D]

theorem readD_enc (d : D) (rest : List Byte) : readD (Double.enc d ++ rest) = .ok (d, rest) := by
  have := Double.enc_length d
  rw [readD, if_pos (by simp [this]), List.take_left' this, List.drop_left' this, Double.dec_enc]

theorem readDs_enc (l : List D) (rest : List Byte) : readDs l.length (encAll l ++ rest) = .ok (l, rest) := by
  induction l with
  | nil => rfl
  | cons d l ih =>
    simp only [encAll, List.flatMap_cons, List.length_cons, readDs, List.append_assoc] at ih ⊢
    rw [readD_enc]
    show (readDs (D := D) l.length (List.flatMap Double.enc l ++ rest) >>= _) = _
    rw [ih]
    rfl

theorem encAll_length (l : List D) : (encAll l).length = 8 * l.length := by
  induction l with
  | nil => rfl
  | cons d l ih => simp only [encAll, List.flatMap_cons, List.length_append, Double.enc_length, List.length_cons] at ih ⊢; omega

theorem readIs_pack {l : List Int} {bs : List (List Byte)} (h : l.mapM packI = .ok bs) (rest : List Byte) :
    readIs l.length (bs.flatten ++ rest) = .ok (l, rest) := by
  induction l generalizing bs with
  | nil => cases h; rfl
  | cons v l ih =>
    simp only [List.mapM_cons, Py.bind_ok] at h
    obtain ⟨b, hb, bs', hbs, h⟩ := h
    cases h
    simp only [List.length_cons, readIs, List.flatten_cons, List.append_assoc]
    rw [readI_pack hb]
    show (readIs l.length (bs'.flatten ++ rest) >>= _) = _
    rw [ih hbs]
    rfl

theorem packIs_length {l : List Int} {bs : List (List Byte)} (h : l.mapM packI = .ok bs) : bs.flatten.length = 4 * l.length := by
  induction l generalizing bs with
  | nil => cases h; rfl
  | cons v l ih =>
    simp only [List.mapM_cons, Py.bind_ok] at h
    obtain ⟨b, hb, bs', hbs, h⟩ := h
    cases h
    simp only [List.flatten_cons, List.length_append, packI_length hb, ih hbs, List.length_cons]
    omega

theorem packPoint_ok {p : List D} {b : List Byte} (h : packPoint p = .ok b) : ∃ x y l, p = x :: y :: l ∧ b = Double.enc x ++ Double.enc y := by
  match p, h with
  | x :: y :: l, h => exact ⟨x, y, l, rfl, (Except.ok.inj h).symm⟩

theorem readPoints_pack {l : List (List D)} {bs : List (List Byte)} (h : l.mapM packPoint = .ok bs) (rest : List Byte) :
    readPoints l.length (bs.flatten ++ rest) = .ok (l.map (List.take 2), rest) := by
  induction l generalizing bs with
  | nil => cases h; rfl
  | cons p l ih =>
    simp only [List.mapM_cons, Py.bind_ok] at h
    obtain ⟨b, hb, bs', hbs, h⟩ := h
    cases h
    obtain ⟨x, y, q, rfl, rfl⟩ := packPoint_ok hb
    simp only [List.length_cons, readPoints, readDs, List.flatten_cons, List.append_assoc]
    simp only [readD_enc, ok_bind, pure, Except.pure, ih hbs]
    rfl

theorem packPoints_length {l : List (List D)} {bs : List (List Byte)} (h : l.mapM packPoint = .ok bs) :
    bs.flatten.length = 16 * l.length := by
  induction l generalizing bs with
  | nil => cases h; rfl
  | cons p l ih =>
    simp only [List.mapM_cons, Py.bind_ok] at h
    obtain ⟨b, hb, bs', hbs, h⟩ := h
    cases h
    obtain ⟨x, y, q, rfl, rfl⟩ := packPoint_ok hb
    simp only [List.flatten_cons, List.length_append, Double.enc_length, ih hbs, List.length_cons]
    omega

/-- The measures that are written. -/
theorem packMs_ok {l : List (List D)} {bs : List (List Byte)} (h : l.mapM packM = .ok bs) :
    ∃ ms : List D, l.map (fun p => p[3]?) = ms.map some ∧ bs.flatten = encAll ms ∧ ms.length = l.length := by
  induction l generalizing bs with
  | nil => cases h; exact ⟨[], rfl, rfl, rfl⟩
  | cons p l ih =>
    simp only [List.mapM_cons, Py.bind_ok] at h
    obtain ⟨b, hb, bs', hbs, h⟩ := h
    cases h
    obtain ⟨ms, h1, h2, h3⟩ := ih hbs
    simp only [packM] at hb
    split at hb
    · rename_i v hv
      cases hb
      refine ⟨v :: ms, by simp [hv, h1], by simp [encAll] at h2 ⊢; exact h2, by simp [h3]⟩
    · cases hb

theorem bboxOf_length {ss : List (Shape D)} {l : List D} (h : bboxOf ss = .ok l) : l.length = 4 := by
  simp only [bboxOf, Py.bind_ok] at h
  obtain ⟨_, _, _, _, _, _, _, _, _, _, h⟩ := h
  cases h
  rfl

theorem mboxOf_length {ss : List (Shape D)} {l : List D} (h : mboxOf ss = .ok l) : l.length = 2 := by
  simp only [mboxOf, Py.bind_ok] at h
  obtain ⟨_, _, _, _, h⟩ := h
  cases h
  rfl

theorem zboxOf_length {ss : List (Shape D)} {l : List D} (h : zboxOf ss = .ok l) : l.length = 2 := by
  simp only [zboxOf, Py.bind_ok] at h
  obtain ⟨_, _, _, _, h⟩ := h
  cases h
  rfl

/-! ### One record -/

theorem writeIf_true {c : Prop} [Decidable c] (h : c) (x : Py (List Byte)) : writeIf c x = x := by simp [writeIf, h]
theorem writeIf_false {c : Prop} [Decidable c] (h : ¬ c) (x : Py (List Byte)) : writeIf c x = .ok [] := by simp [writeIf, h]

theorem readIf_true {α : Type} {c : Prop} [Decidable c] (h : c) {rd : List Byte → Py (α × List Byte)} {rest rest' : List Byte} {a : α}
    (hr : rd rest = .ok (a, rest')) : readIf c rd rest = .ok (some a, rest') := by
  simp only [readIf, h, if_true, hr]; rfl

theorem readIf_false {α : Type} {c : Prop} [Decidable c] (h : ¬ c) (rd : List Byte → Py (α × List Byte)) (rest : List Byte) :
    readIf c rd rest = .ok (none, rest) := by
  simp only [readIf, h, if_false]

theorem packFirst_ok {s : Shape D} {b : List Byte} (h : packFirst s = .ok b) :
    ∃ x y q ps, s.points = (x :: y :: q) :: ps ∧ b = encAll [x, y] := by
  simp only [packFirst] at h
  split at h
  · rename_i x y q ps hp
    exact ⟨x, y, q, ps, hp, by simpa [encAll] using (Except.ok.inj h).symm⟩
  · cases h

/-- A point made longer keeps its first two coordinates. -/
theorem pointZ_ok {s s' : Shape D} {b : List Byte} {x y : D} {q : List D} {ps : List (List D)} (hp : s.points = (x :: y :: q) :: ps)
    (h : pointZ s = .ok (b, s')) : ∃ (v : D) (q' : List D), b = encAll [v] ∧ s'.points = (x :: y :: q') :: ps ∧ s'.parts = s.parts := by
  simp only [pointZ, hp] at h
  split at h
  · cases h; exact ⟨0, q, by simp [encAll], rfl, rfl⟩
  · rename_i v _ _
    cases h; exact ⟨v, q, by simp [encAll], hp, rfl⟩
  · split at h
    · rename_i v _
      cases h
      refine ⟨v, if (x :: y :: q).length < 3 then q ++ [0] else q, by simp [encAll], ?_, rfl⟩
      split <;> simp
    · cases h

theorem pointM_ok {s s' : Shape D} {b : List Byte} {x y : D} {q : List D} {ps : List (List D)} (hp : s.points = (x :: y :: q) :: ps)
    (h : pointM s = .ok (b, s')) : ∃ (v : D) (q' : List D), b = encAll [v] ∧ s'.points = (x :: y :: q') :: ps ∧ s'.parts = s.parts := by
  simp only [pointM, hp] at h
  split at h
  · cases h; exact ⟨0, q, by simp [encAll], rfl, rfl⟩
  · rename_i v _ _
    cases h; exact ⟨v, q, by simp [encAll], hp, rfl⟩
  · cases h
  · split at h
    · rename_i v _
      cases h
      refine ⟨v, if (x :: y :: q).length < 4 then q ++ [0] else q, by simp [encAll], ?_, rfl⟩
      split <;> simp
    · cases h

/-- What is written for a single point. -/
theorem content_single {s s' : Shape D} {t : Int} {bs : List Byte} (ht : t = 1 ∨ t = 11 ∨ t = 21) (h : content s t = .ok (bs, s')) :
    ∃ (b0 : List Byte) (x y : D) (q q' : List D) (ps : List (List D)) (vs : List D), packI t = .ok b0 ∧ s.points = (x :: y :: q) :: ps ∧ bs = b0 ++ (encAll [x, y] ++ encAll vs) ∧
      (vs.length = if t = 11 then 2 else if t = 21 then 1 else 0) ∧ s'.points = (x :: y :: q') :: ps ∧ s'.parts = s.parts := by
  rcases ht with rfl | rfl | rfl
  · simp [content, body, writeIf, changeIf, boxed, parted, pointed, zed, measured, single, Py.bind_ok] at h
    obtain ⟨b0, h0, b1, h1, rfl, rfl⟩ := h
    obtain ⟨x, y, q, ps, hp, rfl⟩ := packFirst_ok h1
    exact ⟨b0, x, y, q, q, ps, [], h0, hp, by simp [encAll], rfl, hp, rfl⟩
  · simp [-bind_pure_comp, content, body, writeIf, changeIf, boxed, parted, pointed, zed, measured, single, Py.bind_ok] at h
    obtain ⟨b0, h0, b1, h1, b2, s1, h2, b3, s2, h3, h⟩ := h
    obtain ⟨rfl, rfl⟩ := h
    obtain ⟨x, y, q, ps, hp, rfl⟩ := packFirst_ok h1
    obtain ⟨v, q1, rfl, hp1, hpa⟩ := pointZ_ok hp h2
    obtain ⟨v', q2, rfl, hp2, hpa'⟩ := pointM_ok hp1 h3
    exact ⟨b0, x, y, q, q2, ps, [v, v'], h0, hp, by simp [encAll], rfl, hp2, hpa'.trans hpa⟩
  · simp [-bind_pure_comp, content, body, writeIf, changeIf, boxed, parted, pointed, zed, measured, single, Py.bind_ok] at h
    obtain ⟨b0, h0, b1, h1, b3, s2, h3, h⟩ := h
    obtain ⟨rfl, rfl⟩ := h
    obtain ⟨x, y, q, ps, hp, rfl⟩ := packFirst_ok h1
    obtain ⟨v', q2, rfl, hp2, hpa'⟩ := pointM_ok hp h3
    exact ⟨b0, x, y, q, q2, ps, [v'], h0, hp, by simp [encAll], rfl, hp2, hpa'⟩

theorem attr_ok {α : Type} {o : Option α} {a : α} (h : attr o = .ok a) : o = some a := by
  cases o with
  | none => cases h
  | some b => rw [Except.ok.inj h]

/-- What is written for a multipoint. -/
theorem content_multi {s s' : Shape D} {bs : List Byte} (h : content s 8 = .ok (bs, s')) :
    ∃ b0 box b3 b6, packI 8 = .ok b0 ∧ box.length = 4 ∧ bboxOf [s] = .ok box ∧ packI s.points.length = .ok b3 ∧
      s.points.mapM packPoint = .ok b6 ∧ bs = b0 ++ (encAll box ++ (b3 ++ b6.flatten)) ∧ s' = s := by
  simp [content, body, writeIf, changeIf, boxed, parted, pointed, zed, measured, single, Py.bind_ok] at h
  obtain ⟨b0, h0, box, h1, b3, h3, b6, h6, rfl, rfl⟩ := h
  exact ⟨b0, box, b3, b6, h0, bboxOf_length h1, h1, h3, h6, rfl, rfl⟩

/-- What is written for a line or a polygon. -/
theorem content_poly {s s' : Shape D} {t : Int} {bs : List Byte} (ht : Parted t) (h : content s t = .ok (bs, s')) :
    ∃ (b0 : List Byte) (box : List D) (parts : List Int) (b2 b3 : List Byte) (b4 b6 : List (List Byte)) (mm ms : List D), packI t = .ok b0 ∧ box.length = 4 ∧ bboxOf [s] = .ok box ∧ s.parts = some parts ∧
      packI parts.length = .ok b2 ∧ packI s.points.length = .ok b3 ∧ parts.mapM packI = .ok b4 ∧ s.points.mapM packPoint = .ok b6 ∧
      (if t = 23 ∨ t = 25 then mm.length = 2 ∧ s.points.map (fun p => p[3]?) = ms.map some ∧ ms.length = s.points.length else mm = [] ∧ ms = []) ∧
      bs = b0 ++ (encAll box ++ (b2 ++ (b3 ++ (b4.flatten ++ (b6.flatten ++ (encAll mm ++ encAll ms)))))) ∧ s' = s := by
  rcases ht with rfl | rfl | rfl | rfl
  iterate 2
    · simp [content, body, writeIf, changeIf, boxed, parted, pointed, zed, measured, single, Py.bind_ok, packAll] at h
      obtain ⟨b0, h0, box, h1, parts, hp, b2, h2, b3, h3, parts', hp', b4, h4, b6, h6, rfl, rfl⟩ := h
      have := (attr_ok hp).symm.trans (attr_ok hp')
      cases this
      exact ⟨b0, box, parts, b2, b3, b4, b6, [], [], h0, bboxOf_length h1, h1, attr_ok hp, h2, h3, h4, h6, by simp, by simp [encAll], rfl⟩
  iterate 2
    · simp [content, body, writeIf, changeIf, boxed, parted, pointed, zed, measured, single, Py.bind_ok, packAll] at h
      obtain ⟨b0, h0, box, h1, parts, hp, b2, h2, b3, h3, parts', hp', b4, h4, b6, h6, mm, h7, b8, h8, rfl, rfl⟩ := h
      have := (attr_ok hp).symm.trans (attr_ok hp')
      cases this
      obtain ⟨ms, hm1, hm2, hm3⟩ := packMs_ok h8
      exact ⟨b0, box, parts, b2, b3, b4, b6, mm, ms, h0, bboxOf_length h1, h1, attr_ok hp, h2, h3, h4, h6,
        by simpa using ⟨mboxOf_length h7, hm1, hm3⟩, by simp [hm2], rfl⟩

theorem readDs_enc' {l : List D} {n : Nat} (h : l.length = n) (rest : List Byte) : readDs n (encAll l ++ rest) = .ok (l, rest) := by
  rw [← h, readDs_enc]

theorem readBody_single {s s' : Shape D} {t : Int} {bs : List Byte} (ht : t = 1 ∨ t = 11 ∨ t = 21) (h : content s t = .ok (bs, s'))
    (noM : Bool) (rest : List Byte) : ∃ out, readBody noM (bs ++ rest) = .ok out ∧ Same t s out := by
  obtain ⟨b0, x, y, q, q', ps, vs, h0, hp, rfl, hv, -, -⟩ := content_single ht h
  simp only [readBody, List.append_assoc, readI_pack h0, ok_bind]
  have e2 := readDs_enc' (n := 2) (l := [x, y]) rfl
  rcases ht with rfl | rfl | rfl
  · have : vs = [] := List.length_eq_zero_iff.mp (by simpa using hv)
    subst this
    simp [readIf, boxed, parted, pointed, zed, measured, single, e2, ok_bind, truthy]
    exact ⟨rfl, by simp [planar, hp], by simp [Parted]⟩
  · obtain ⟨v, v', rfl⟩ := List.length_eq_two.mp (by simpa using hv)
    have e1 := fun (d : D) => readDs_enc' (n := 1) (l := [d]) rfl
    have ev : encAll [v, v'] ++ rest = encAll [v] ++ (encAll [v'] ++ rest) := by simp [encAll]
    simp [readIf, boxed, parted, pointed, zed, measured, single, e2, e1, ev, ok_bind, truthy]
    exact ⟨rfl, by simp [planar, hp], by simp [Parted]⟩
  · obtain ⟨v, rfl⟩ := List.length_eq_one_iff.mp (by simpa using hv)
    have e1 := fun (d : D) => readDs_enc' (n := 1) (l := [d]) rfl
    simp [readIf, boxed, parted, pointed, zed, measured, single, e2, e1, ok_bind, truthy]
    exact ⟨rfl, by simp [planar, hp], by simp [Parted]⟩

theorem columns_ne_nil {points : List (List D)} {c : List D × List D} (h : columns points = .ok c) : points ≠ [] := by
  rintro rfl
  cases h

theorem bboxOf_ne_nil {s : Shape D} {box : List D} (h : bboxOf [s] = .ok box) : s.points ≠ [] := by
  simp only [bboxOf, Py.bind_ok, List.mapM_cons, List.mapM_nil] at h
  obtain ⟨_, ⟨c, hc, _⟩, _⟩ := h
  exact columns_ne_nil hc

theorem readBody_multi {s s' : Shape D} {bs : List Byte} (h : content s 8 = .ok (bs, s'))
    (noM : Bool) (rest : List Byte) : ∃ out, readBody noM (bs ++ rest) = .ok out ∧ Same 8 s out := by
  obtain ⟨b0, box, b3, b6, h0, hb, hbox, h3, h6, rfl, -⟩ := content_multi h
  simp only [readBody, List.append_assoc, readI_pack h0, ok_bind]
  have e4 := readDs_enc' hb
  have hne := bboxOf_ne_nil hbox
  simp [readIf, boxed, parted, pointed, zed, measured, single, e4, readI_pack h3, readPoints_pack h6, ok_bind, truthy, hne]
  exact ⟨rfl, by simp [planar], by simp [Parted]⟩

theorem readBody_poly {s s' : Shape D} {t : Int} {bs : List Byte} (ht : Parted t) (h : content s t = .ok (bs, s'))
    (noM : Bool) (rest : List Byte) : ∃ out, readBody noM (bs ++ rest) = .ok out ∧ Same t s out ∧
      (t = 23 ∨ t = 25 → if noM then out.m = none else ∃ ms : List D, s.points.map (fun p => p[3]?) = ms.map some ∧ out.m = some (noNoData ms)) := by
  obtain ⟨b0, box, parts, b2, b3, b4, b6, mm, ms, h0, hb, hbox, hp, h2, h3, h4, h6, hm, rfl, -⟩ := content_poly ht h
  simp only [readBody, List.append_assoc, readI_pack h0, ok_bind]
  have e4 := readDs_enc' hb
  have hne := bboxOf_ne_nil hbox
  have eP : truthy (some (s.points.length : Int)) := by simp [truthy, hne]
  have hparts : ∃ o, o.getD [] = parts ∧ ∀ r, (if truthy (some (parts.length : Int)) then
      (fun a : List Int × List Byte => (some a.1, a.2)) <$> readParts (some (parts.length : Int)) (b4.flatten ++ r)
      else Except.ok (none, b4.flatten ++ r)) = .ok (o, r) := by
    by_cases hz : parts = []
    · subst hz; cases h4; exact ⟨none, rfl, fun r => rfl⟩
    · have : truthy (some (parts.length : Int)) := by simp [truthy, hz]
      refine ⟨some parts, rfl, fun r => ?_⟩
      simp [this, readParts, count, ok_bind, readIs_pack h4]
  obtain ⟨o, ho, hparts⟩ := hparts
  have eR : ∀ r, readRange (D := D) (some (s.points.length : Int)) (encAll mm ++ (encAll ms ++ r)) = .ok (ms, r) ∨ (mm = [] ∧ ms = []) := by
    intro r
    split at hm
    · left
      simp [readRange, readDs_enc' hm.1, count, ok_bind, readDs_enc' hm.2.2]
    · exact Or.inr hm
  rcases ht with rfl | rfl | rfl | rfl
  iterate 2
    · simp at hm
      obtain ⟨rfl, rfl⟩ := hm
      simp [readIf, boxed, parted, pointed, zed, measured, single, e4, readI_pack h2, readI_pack h3, ok_bind, hparts, eP, readPoints_pack h6]
      exact ⟨rfl, by simp [planar], by simp [ho, hp]⟩
  iterate 2
    · simp at hm
      have eR := fun r => (eR r).resolve_right (by rintro ⟨rfl, -⟩; simp at hm)
      cases noM
      · simp [readIf, boxed, parted, pointed, zed, measured, single, e4, readI_pack h2, readI_pack h3, ok_bind, hparts, eP, readPoints_pack h6, eR]
        exact ⟨⟨rfl, by simp [planar], by simp [ho, hp]⟩, ms, hm.2.1, rfl⟩
      · simp [readIf, boxed, parted, pointed, zed, measured, single, e4, readI_pack h2, readI_pack h3, ok_bind, hparts, eP, readPoints_pack h6]
        exact ⟨rfl, by simp [planar], by simp [ho, hp]⟩

/-- Reading back what was written for one shape. -/
theorem readBody_content {s s' : Shape D} {t : Int} {bs : List Byte} (ht : Plain t) (h : content s t = .ok (bs, s'))
    (noM : Bool) (rest : List Byte) :
    ∃ out, readBody noM (bs ++ rest) = .ok out ∧ Same t s out ∧
      (t = 23 ∨ t = 25 → if noM then out.m = none else ∃ ms : List D, s.points.map (fun p => p[3]?) = ms.map some ∧ out.m = some (noNoData ms)) := by
  have h1 : (t = 1 ∨ t = 11 ∨ t = 21) ∨ t = 8 ∨ Parted t := by simp only [Plain, Parted] at ht ⊢; omega
  rcases h1 with h1 | rfl | h1
  · obtain ⟨out, ho, hs⟩ := readBody_single h1 h noM rest
    exact ⟨out, ho, hs, by omega⟩
  · obtain ⟨out, ho, hs⟩ := readBody_multi h noM rest
    exact ⟨out, ho, hs, by omega⟩
  · exact readBody_poly h1 h noM rest

/-! ### Records hold whole 16-bit words, whatever the type -/

theorem writeIf_dvd {c : Prop} [Decidable c] {x : Py (List Byte)} {b : List Byte} (h : writeIf c x = .ok b)
    (hx : ∀ b, x = .ok b → 4 ∣ b.length) : 4 ∣ b.length := by
  simp only [writeIf] at h
  split at h
  · exact hx b h
  · cases h; simp

theorem packI_dvd {v : Int} {b : List Byte} (h : packI v = .ok b) : 4 ∣ b.length := ⟨1, packI_length h⟩

theorem packAll_dvd {l : List Int} {b : List Byte} (h : packAll l = .ok b) : 4 ∣ b.length := by
  simp only [packAll, Py.bind_ok] at h
  obtain ⟨bs, hbs, h⟩ := h
  cases h
  rw [packIs_length hbs]
  omega

theorem encAll_dvd (l : List D) : 4 ∣ (encAll l).length := by rw [encAll_length]; omega

theorem body_dvd {s : Shape D} {t : Int} {bs : List Byte} (h : body s t = .ok bs) : 4 ∣ bs.length := by
  simp only [body, Py.bind_ok] at h
  obtain ⟨b1, h1, b2, h2, b3, h3, b4, h4, b5, h5, b6, h6, b7, h7, b8, h8, b9, h9, h⟩ := h
  cases h
  have d1 := writeIf_dvd h1 (by
    intro b hb
    obtain ⟨l, -, hb⟩ := Py.bind_ok.mp hb
    cases hb; exact encAll_dvd l)
  have d2 := writeIf_dvd h2 (by
    intro b hb
    obtain ⟨l, -, hb⟩ := Py.bind_ok.mp hb
    exact packI_dvd hb)
  have d3 := writeIf_dvd h3 (fun b hb => packI_dvd hb)
  have d4 := writeIf_dvd h4 (by
    intro b hb
    obtain ⟨l, -, hb⟩ := Py.bind_ok.mp hb
    exact packAll_dvd hb)
  have d5 := writeIf_dvd h5 (by
    intro b hb
    obtain ⟨l, -, hb⟩ := Py.bind_ok.mp hb
    exact packAll_dvd hb)
  have d6 := writeIf_dvd h6 (by
    intro b hb
    obtain ⟨l, hl, hb⟩ := Py.bind_ok.mp hb
    cases hb
    rw [packPoints_length hl]; omega)
  have d7 := writeIf_dvd h7 (by
    intro b hb
    obtain ⟨l, -, hb⟩ := Py.bind_ok.mp hb
    obtain ⟨l', -, hb⟩ := Py.bind_ok.mp hb
    cases hb
    rw [List.length_append]
    exact Nat.dvd_add (encAll_dvd l) (encAll_dvd l'))
  have d8 := writeIf_dvd h8 (by
    intro b hb
    obtain ⟨l, -, hb⟩ := Py.bind_ok.mp hb
    obtain ⟨l', hl', hb⟩ := Py.bind_ok.mp hb
    cases hb
    obtain ⟨ms, -, hm, -⟩ := packMs_ok hl'
    rw [List.length_append, hm]
    exact Nat.dvd_add (encAll_dvd l) (encAll_dvd ms))
  have d9 := writeIf_dvd h9 (by
    intro b hb
    obtain ⟨x, y, q, ps, -, rfl⟩ := packFirst_ok hb
    exact encAll_dvd _)
  simp only [List.length_append]
  omega

theorem pointZ_dvd {s s' : Shape D} {b : List Byte} (h : pointZ s = .ok (b, s')) : 4 ∣ b.length := by
  simp only [pointZ] at h
  split at h
  · cases h; rw [Double.enc_length]; decide
  · cases h; rw [Double.enc_length]; decide
  · split at h
    · cases h
    · split at h
      · cases h; rw [Double.enc_length]; decide
      · cases h

theorem pointM_dvd {s s' : Shape D} {b : List Byte} (h : pointM s = .ok (b, s')) : 4 ∣ b.length := by
  simp only [pointM] at h
  split at h
  · cases h; rw [Double.enc_length]; decide
  · cases h; rw [Double.enc_length]; decide
  · cases h
  · split at h
    · cases h
    · split at h
      · cases h; rw [Double.enc_length]; decide
      · cases h

theorem content_even {s s' : Shape D} {t : Int} {bs : List Byte} (h : content s t = .ok (bs, s')) : 4 ∣ bs.length := by
  simp only [content, Py.bind_ok] at h
  obtain ⟨b0, h0, b, hb, ⟨bz, s1⟩, hz, ⟨bm, s2⟩, hm, h⟩ := h
  cases h
  have d0 := packI_dvd h0
  have d1 := body_dvd hb
  have dz : 4 ∣ bz.length := by
    simp only [changeIf] at hz
    split at hz
    · exact pointZ_dvd hz
    · cases hz; simp
  have dm : 4 ∣ bm.length := by
    simp only [changeIf] at hm
    split at hm
    · exact pointM_dvd hm
    · cases hm; simp
  simp only [List.length_append]
  omega

/-! ### The records of a file -/

/-- One record: its number, its length in words and the content. -/
def IsRec (w : Option Int) (n : Nat) (s : Shape D) (r : List Byte) (s' : Shape D) : Prop :=
  ∃ t bs bn bl, (retype w s).shapeType = some t ∧ content (retype w s) t = .ok (bs, s') ∧
    packBI n = .ok bn ∧ packBI (bs.length / 2 : Nat) = .ok bl ∧ r = bn ++ (bl ++ bs)

/-- The records of a list of shapes, numbered from `n`. -/
inductive Recs (w : Option Int) : Nat → List (Shape D) → List (List Byte) → List (Shape D) → Prop
  | nil {n} : Recs w n [] [] []
  | cons {n s r s' ss rs ss'} : IsRec w n s r s' → Recs w (n + 1) ss rs ss' → Recs w n (s :: ss) (r :: rs) (s' :: ss')

/-- Where records start. -/
def starts : Nat → List (List Byte) → List Nat
  | _, [] => []
  | p, r :: rs => p :: starts (p + r.length) rs

theorem write_end {f : File} (h : f.pos = f.data.length) (bs : List Byte) :
    f.write bs = ⟨f.data ++ bs, (f.data ++ bs).length⟩ := by
  simp [File.write, h]

theorem write_patch (d bn old new bs : List Byte) (h : old.length = new.length) (p : Nat) (hp : p = d.length + bn.length) :
    ((File.mk (d ++ (bn ++ old) ++ bs) (d ++ (bn ++ old) ++ bs).length).seek p).write new =
      ⟨d ++ (bn ++ (new ++ bs)), p + new.length⟩ := by
  subst hp
  have e : d ++ (bn ++ old) ++ bs = (d ++ bn) ++ (old ++ bs) := by simp
  have e1 : d.length + bn.length - ((d ++ bn) ++ (old ++ bs)).length = 0 := by simp only [List.length_append]; omega
  simp only [File.write, File.seek, e, e1]
  rw [List.take_left' (by simp), show d.length + bn.length + new.length = (d ++ bn).length + old.length by simp [h]]
  rw [List.drop_append]
  simp

theorem number_ok {o : Option Int} {t : Int} (h : number o = .ok t) : o = some t := by
  cases o with
  | none => cases h
  | some b => rw [Except.ok.inj h]

theorem recordsLoop_ok {w : Option Int} {n : Nat} {f f' : File} {offs lens offs' lens' : List Nat} {ss ss' : List (Shape D)}
    (hf : f.pos = f.data.length) (h : recordsLoop w n f offs lens ss = .ok (f', offs', lens', ss')) :
    ∃ rs, Recs w n ss rs ss' ∧ f'.data = f.data ++ rs.flatten ∧ offs' = offs ++ starts f.pos rs ∧
      lens' = lens ++ rs.map (fun r => (r.length - 8) / 2) := by
  induction ss generalizing n f offs lens ss' with
  | nil =>
    cases h
    exact ⟨[], .nil, by simp, by simp [starts], by simp⟩
  | cons s ss ih =>
    simp only [recordsLoop, Py.bind_ok] at h
    obtain ⟨bn, hn, b0, h0, t, ht, ⟨bs, s'⟩, hc, bl, hl, ⟨f1, offs1, lens1, ss1⟩, hr, h⟩ := h
    cases h
    have l0 := packBI_length h0
    have ln := packBI_length hn
    have ll := packBI_length hl
    have w1 := write_end hf (bn ++ b0)
    have w2 : (f.write (bn ++ b0)).write bs = ⟨f.data ++ (bn ++ b0) ++ bs, (f.data ++ (bn ++ b0) ++ bs).length⟩ := by
      rw [w1, write_end rfl]
    have hlen : ((f.write (bn ++ b0)).write bs).pos - (f.write (bn ++ b0)).pos = bs.length := by
      rw [w2, w1]; simp; omega
    have w3 : ((((f.write (bn ++ b0)).write bs).seek ((f.write (bn ++ b0)).pos - 4)).write bl).seek ((f.write (bn ++ b0)).write bs).pos =
        ⟨f.data ++ (bn ++ (bl ++ bs)), (f.data ++ (bn ++ (bl ++ bs))).length⟩ := by
      rw [w2, w1, write_patch f.data bn b0 bl bs (by omega) _ (by simp; omega)]
      simp [File.seek]
      omega
    rw [w3, hlen] at hr
    rw [hlen] at hl
    obtain ⟨rs, hrs, hd, ho, hle⟩ := ih rfl hr
    refine ⟨(bn ++ (bl ++ bs)) :: rs, .cons ⟨t, bs, bn, bl, number_ok ht, hc, hn, hl, rfl⟩ hrs, ?_, ?_, ?_⟩
    · simpa using hd
    · simpa [starts, hf] using ho
    · have : bn.length + (bl.length + bs.length) - 8 = bs.length := by omega
      simpa [this] using hle

theorem IsRec.length {w : Option Int} {n : Nat} {s s' : Shape D} {r : List Byte} (h : IsRec w n s r s') : 8 ≤ r.length ∧ 4 ∣ r.length := by
  obtain ⟨t, bs, bn, bl, -, hc, hn, hl, rfl⟩ := h
  have := content_even hc
  simp only [List.length_append, packBI_length hn, packBI_length hl]
  omega

/-- What follows a record in the file does not matter for where the next one starts. -/
theorem IsRec.next {w : Option Int} {n : Nat} {s s' : Shape D} {r : List Byte} (h : IsRec w n s r s') (noM : Bool) (rest : List Byte)
    {out : Shape D} {l : Int} (hr : readShape noM (r ++ rest) = .ok (out, l)) : (r.length : Int) = 8 + 2 * l := by
  obtain ⟨t, bs, bn, bl, -, hc, hn, hl, rfl⟩ := h
  simp only [readShape, List.append_assoc, readBI_pack hn, readBI_pack hl, ok_bind, Py.bind_ok] at hr
  obtain ⟨_, _, hr⟩ := hr
  cases hr
  have := content_even hc
  simp only [List.length_append, packBI_length hn, packBI_length hl]
  omega

theorem IsRec.read {w : Option Int} {n : Nat} {s s' : Shape D} {r : List Byte} (h : IsRec w n s r s') {t : Int} (ht : Plain t)
    (hw : w = some t) (noM : Bool) (rest : List Byte) :
    ∃ out l, readShape noM (r ++ rest) = .ok (out, l) ∧ Same t s out ∧
      (t = 23 ∨ t = 25 → if noM then out.m = none else ∃ ms : List D, s.points.map (fun p => p[3]?) = ms.map some ∧ out.m = some (noNoData ms)) := by
  obtain ⟨t', bs, bn, bl, hty, hc, hn, hl, rfl⟩ := h
  have h31 : t ≠ 31 := by rintro rfl; simp [Plain] at ht
  have hs : retype w s = { s with shapeType := some t } := by simp [retype, hw, h31]
  rw [hs] at hty hc
  cases hty
  obtain ⟨out, ho, hsame, hm⟩ := readBody_content ht hc noM rest
  refine ⟨out, (bs.length / 2 : Nat), ?_, ⟨hsame.1, hsame.2, hsame.3⟩, hm⟩
  simp only [readShape, List.append_assoc, readBI_pack hn, readBI_pack hl, ok_bind, ho]
  rfl

theorem shapeAt_at {noM : Bool} {pre r rest : List Byte} {out : Shape D} {l : Int} (h : readShape noM (r ++ rest) = .ok (out, l))
    (hl : (r.length : Int) = 8 + 2 * l) : shapeAt noM (pre ++ (r ++ rest)) pre.length = .ok (out, pre.length + r.length) := by
  simp only [shapeAt, List.drop_left, h, ok_bind]
  rw [if_pos (by omega)]
  show Except.ok _ = _
  congr 2
  omega

theorem Shapes.det {noM : Bool} {data : List Byte} {pos : Nat} {r r' : Py (List (Shape D))} (h : Shapes D noM data pos r)
    (h' : Shapes D noM data pos r') : r = r' := by
  induction h generalizing r' with
  | done hd => cases h' with
    | done => rfl
    | raise hp => omega
    | next hp => omega
  | raise hp he => cases h' with
    | done => omega
    | raise _ he' => rw [he] at he'; cases he'; rfl
    | next _ he' => rw [he] at he'; cases he'
  | next hp he _ ih => cases h' with
    | done => omega
    | raise _ he' => rw [he] at he'; cases he'
    | next _ he' h2 => rw [he] at he'; cases he'; rw [ih h2]

/-- Reading records one after the other. -/
theorem Recs.shapes {w : Option Int} {t : Int} (ht : Plain t) (hw : w = some t) (noM : Bool) {n : Nat} {ss ss' : List (Shape D)}
    {rs : List (List Byte)} (h : Recs w n ss rs ss') (pre : List Byte) :
    ∃ outs, Shapes D noM (pre ++ rs.flatten) pre.length (.ok outs) ∧ List.Forall₂ (fun s out => Same t s out ∧
      (t = 23 ∨ t = 25 → if noM then out.m = none else ∃ ms : List D, s.points.map (fun p => p[3]?) = ms.map some ∧ out.m = some (noNoData ms))) ss outs := by
  induction h generalizing pre with
  | nil => exact ⟨[], .done (by simp), .nil⟩
  | cons hr _ ih =>
    rename_i r _ _ rs _ _
    obtain ⟨out, l, hread, hsame⟩ := hr.read ht hw noM rs.flatten
    have hl := hr.next noM rs.flatten hread
    obtain ⟨outs, hsh, hall⟩ := ih (pre ++ r)
    refine ⟨out :: outs, ?_, .cons hsame hall⟩
    have hpos := hr.length.1
    have hat := shapeAt_at (pre := pre) hread hl
    have : Shapes D noM (pre ++ (r ++ rs.flatten)) (pre.length + r.length) (.ok outs) := by
      simpa using hsh
    exact .next (by simp; omega) hat this

/-- Whatever the records are, the index positions are the positions sequential reading visits. -/
theorem Recs.visits {w : Option Int} {noM : Bool} {n : Nat} {ss ss' : List (Shape D)} {rs : List (List Byte)} (h : Recs w n ss rs ss')
    (pre : List Byte) {outs : List (Shape D)} (hs : Shapes D noM (pre ++ rs.flatten) pre.length (.ok outs)) :
    outs.length = ss.length ∧ (starts pre.length rs).length = ss.length ∧
      ∀ (i o : Nat), (starts pre.length rs)[i]? = some o → ∃ (out : Shape D) (next : Nat), outs[i]? = some out ∧ shapeAt noM (pre ++ rs.flatten) o = .ok (out, next) := by
  induction h generalizing pre outs with
  | nil =>
    generalize hr : (Except.ok outs : Py (List (Shape D))) = res at hs
    cases hs with
    | done => cases hr; exact ⟨rfl, rfl, by simp [starts]⟩
    | raise hp => simp at hp
    | next hp => simp at hp
  | cons hrec _ ih =>
    rename_i r _ _ rs _ _
    have hpos := hrec.length.1
    generalize hr : (Except.ok outs : Py (List (Shape D))) = res at hs
    cases hs with
    | done hd => simp at hd; omega
    | raise hp => cases hr
    | next hp hat hnext =>
      rename_i pos' s0 r0
      cases r0 with
      | error e => cases hr
      | ok outs0 =>
        have ho : outs = s0 :: outs0 := Except.ok.inj hr
        have hp' : pos' = pre.length + r.length := by
          simp only [shapeAt, List.flatten_cons, List.drop_left, Py.bind_ok] at hat
          obtain ⟨⟨o1, l1⟩, hread, hat⟩ := hat
          have := hrec.next noM rs.flatten hread
          simp only at hat
          rw [if_pos (by omega)] at hat
          cases hat
          omega
        obtain ⟨h1, h2, h3⟩ := ih (pre ++ r) (outs := outs0) (by simpa [hp'] using hnext)
        rw [List.length_append] at h2 h3
        refine ⟨by simp [ho, h1], by simp [starts, h2], ?_⟩
        intro i o hi
        cases i with
        | zero =>
          simp only [starts, List.getElem?_cons_zero, Option.some.injEq] at hi
          subst hi
          exact ⟨s0, pos', by simp [ho], hat⟩
        | succ i =>
          simp only [starts, List.getElem?_cons_succ] at hi
          obtain ⟨out, next, ho1, ho2⟩ := h3 i o hi
          exact ⟨out, next, by simpa [ho] using ho1, by simpa using ho2⟩

/-! ### The header -/

theorem packBIs_length {l : List Int} {bs : List (List Byte)} (h : l.mapM packBI = .ok bs) : bs.flatten.length = 4 * l.length := by
  induction l generalizing bs with
  | nil => cases h; rfl
  | cons v l ih =>
    simp only [List.mapM_cons, Py.bind_ok] at h
    obtain ⟨b, hb, bs', hbs, h⟩ := h
    cases h
    simp only [List.flatten_cons, List.length_append, packBI_length hb, ih hbs, List.length_cons]
    omega

theorem header_ok {length : Py Nat} {t : Int} {ss : List (Shape D)} {h : List Byte} (hh : header length t ss = .ok h) :
    ∃ n m, length = .ok n ∧ mboxOf ss = .ok m ∧ h.length = 100 ∧ (∀ rest, shpHeader (h ++ rest) = .ok ((n : Int) * 2, t, m)) ∧
      ∀ rest, ∃ r, readBI ((h ++ rest).drop 24) = .ok ((n : Int), r) := by
  simp only [header, Py.bind_ok] at hh
  obtain ⟨b1, h1, n, hn, b2, h2, b3, h3, b4, h4, box, hbox, z, hz, m, hm, hh⟩ := hh
  cases hh
  have l1 : b1.flatten.length = 24 := by rw [packBIs_length h1]; rfl
  have l2 := packBI_length h2
  have l3 := packI_length h3
  have l4 := packI_length h4
  have lb : box.length = 4 := by
    simp only [headerBox] at hbox
    split at hbox
    · exact bboxOf_length hbox
    · cases hbox; rfl
  have lz := zboxOf_length hz
  have lm := mboxOf_length hm
  have d24 : ∀ rest, (b1.flatten ++ b2 ++ b3 ++ b4 ++ encAll box ++ encAll z ++ encAll m ++ rest).drop 24 =
      b2 ++ (b3 ++ (b4 ++ (encAll box ++ (encAll z ++ (encAll m ++ rest))))) := by
    intro rest
    simp only [List.append_assoc]
    rw [← l1, List.drop_left]
  refine ⟨n, m, hn, hm, ?_, ?_, ?_⟩
  · simp only [List.length_append, encAll_length]
    omega
  · intro rest
    have d32 : (b1.flatten ++ b2 ++ b3 ++ b4 ++ encAll box ++ encAll z ++ encAll m ++ rest).drop 32 =
        b4 ++ (encAll box ++ (encAll z ++ (encAll m ++ rest))) := by
      have : b1.flatten ++ b2 ++ b3 ++ b4 ++ encAll box ++ encAll z ++ encAll m ++ rest =
          (b1.flatten ++ b2 ++ b3) ++ (b4 ++ (encAll box ++ (encAll z ++ (encAll m ++ rest)))) := by simp
      rw [this, List.drop_left' (by simp only [List.length_append]; omega)]
    simp only [shpHeader, d24, d32, readBI_pack h2, readI_pack h4, ok_bind, readDs_enc' lb, readDs_enc' lz, readDs_enc' lm]
    rfl
  · intro rest
    rw [d24]
    exact ⟨_, readBI_pack h2 _⟩

theorem withType_ok {w w' : Writer D} (h : w.withType = .ok w') : w' = { w with shapeType := fileType w } := by
  simp only [Writer.withType, fileType] at h ⊢
  split at h
  · rename_i hc
    rw [if_pos hc]
    split at h
    · cases h
    · rename_i s ss he
      cases h
      simp [he]
  · rename_i hc
    rw [if_neg hc]
    exact (Except.ok.inj h).symm

theorem saveShp_ok {w w' : Writer D} {data : List Byte} (h : w.saveShp = .ok (w', data)) :
    ∃ t n m hd rs, fileType w = some t ∧ w'.shapeType = some t ∧ shpFileLength t w.shapes = .ok n ∧ mboxOf w.shapes = .ok m ∧
      hd.length = 100 ∧ data = hd ++ rs.flatten ∧ Recs (some t) 1 w.shapes rs w'.shapes ∧ w'.offsets = w.offsets ++ starts 100 rs ∧
      w'.lengths = w.lengths ++ rs.map (fun r => (r.length - 8) / 2) ∧ shpHeader data = .ok ((n : Int) * 2, t, m) := by
  simp only [Writer.saveShp, Py.bind_ok] at h
  obtain ⟨w1, hw1, t, ht, hd, hhd, ⟨f, offs, lens, ss⟩, hr, h⟩ := h
  cases h
  rw [withType_ok hw1] at ht hhd hr
  have ht := number_ok ht
  dsimp only at ht hhd hr
  obtain ⟨n, m, hn, hm, hlen, hhead, -⟩ := header_ok hhd
  obtain ⟨rs, hrs, hdata, ho, hl⟩ := recordsLoop_ok (by simp [File.seek, hlen]) hr
  rw [ht] at hrs
  have e : f.data = hd ++ rs.flatten := by simpa [File.seek] using hdata
  refine ⟨t, n, m, hd, rs, ht, ?_, hn, hm, hlen, e, hrs, by simpa [File.seek] using ho, hl, ?_⟩
  · rw [withType_ok hw1]; exact ht
  · rw [e]; exact hhead _

theorem Recs.length_ss {w : Option Int} {n : Nat} {ss ss' : List (Shape D)} {rs : List (List Byte)} (h : Recs w n ss rs ss') :
    rs.length = ss.length ∧ ss'.length = ss.length := by
  induction h with
  | nil => exact ⟨rfl, rfl⟩
  | cons _ _ ih => exact ⟨by simp [ih.1], by simp [ih.2]⟩

theorem Recs.even {w : Option Int} {n : Nat} {ss ss' : List (Shape D)} {rs : List (List Byte)} (h : Recs w n ss rs ss') (p : Nat)
    (hp : 2 ∣ p) : ∀ o ∈ starts p rs, 2 ∣ o := by
  induction h generalizing p with
  | nil => simp [starts]
  | cons hr _ ih =>
    have := hr.length.2
    intro o ho
    rcases List.mem_cons.mp ho with rfl | ho
    · exact hp
    · exact ih _ (by omega) o ho

theorem starts_length (p : Nat) (rs : List (List Byte)) : (starts p rs).length = rs.length := by
  induction rs generalizing p with
  | nil => rfl
  | cons r rs ih => simp [starts, ih]

/-! ### The index -/

theorem flatten_drop {rows : List (List Byte)} {k : Nat} (h : ∀ r ∈ rows, r.length = k) (i : Nat) :
    rows.flatten.drop (k * i) = (rows.drop i).flatten := by
  induction rows generalizing i with
  | nil => simp
  | cons r rows ih =>
    cases i with
    | zero => simp
    | succ i =>
      have hr := h r (by simp)
      rw [List.flatten_cons, List.drop_append, List.drop_eq_nil_of_le (by rw [hr, Nat.mul_add]; omega), hr,
        show k * (i + 1) - k = k * i by rw [Nat.mul_add]; omega, ih (fun r hr => h r (by simp [hr]))]
      simp

/-- The offsets read from an index are those it was written with. -/
theorem shxRows_read {rows : List (List Byte)} {offs : List Nat} (hd : List Byte) (hh : hd.length = 100)
    (h : List.Forall₂ (fun (o : Nat) row => ∃ b c, packBI (o / 2 : Nat) = .ok b ∧ c.length = 4 ∧ row = b ++ c) offs rows) (he : ∀ o ∈ offs, 2 ∣ o) :
    (List.range offs.length).mapM (fun i => do
      let (o, _) ← readBI ((hd ++ rows.flatten).drop (100 + 8 * i))
      return o * 2) = (.ok (offs.map (fun o : Nat => (o : Int))) : Py (List Int)) := by
  rw [Py.mapM_ok]
  rw [List.forall₂_iff_get]
  refine ⟨by simp, ?_⟩
  intro i h1 h2
  have hi : i < offs.length := by simpa using h1
  have hi' : i < rows.length := by rw [← h.length_eq]; exact hi
  obtain ⟨b, c, hb, hc, hrow⟩ := List.Forall₂.get h hi hi'
  have hall : ∀ r ∈ rows, r.length = 8 := by
    intro r hr
    obtain ⟨j, hj, rfl⟩ := List.mem_iff_getElem.mp hr
    obtain ⟨b, c, hb, hc, hrow⟩ := List.Forall₂.get h (by rw [h.length_eq]; exact hj) hj
    have : rows[j] = b ++ c := by simpa using hrow
    simp [this, packBI_length hb, hc]
  have hdrop : (hd ++ rows.flatten).drop (100 + 8 * i) = b ++ (c ++ (rows.drop (i + 1)).flatten) := by
    rw [← List.drop_drop, List.drop_left' hh, flatten_drop hall, List.drop_eq_getElem_cons hi']
    have : rows[i] = b ++ c := by simpa using hrow
    simp [this]
  have hev := he offs[i] (List.getElem_mem hi)
  simp only [List.get_eq_getElem, List.getElem_range, hdrop, List.getElem_map]
  have hb : packBI (offs[i] / 2 : Nat) = .ok b := by simpa using hb
  rw [readBI_pack hb]
  show Except.ok _ = _
  congr 1
  omega

theorem shxRecords_ok {offs lens : List Nat} {n : Nat} {bs : List Byte} (h : shxRecords offs lens n = .ok bs) :
    ∃ rows : List (List Byte), bs = rows.flatten ∧ n ≤ offs.length ∧
      List.Forall₂ (fun (o : Nat) row => ∃ b c, packBI (o / 2 : Nat) = .ok b ∧ c.length = 4 ∧ row = b ++ c) (offs.take n) rows := by
  simp only [shxRecords, Py.bind_ok] at h
  obtain ⟨rows, hr, h⟩ := h
  cases h
  rw [Py.mapM_ok] at hr
  have hlen := hr.length_eq
  rw [List.length_range] at hlen
  have hle : n ≤ offs.length := by
    by_contra hlt
    have := List.Forall₂.get hr (i := offs.length) (by simp; omega) (by omega)
    simp at this
  refine ⟨rows, rfl, hle, ?_⟩
  rw [List.forall₂_iff_get]
  refine ⟨by simp; omega, ?_⟩
  intro i h1 h2
  have hi : i < n := by simp at h1; omega
  have hg := List.Forall₂.get hr (i := i) (by simp; omega) h2
  have ho : i < offs.length := by omega
  simp only [List.get_eq_getElem, List.getElem_range, List.getElem?_eq_getElem ho] at hg
  split at hg
  · rename_i o l he _
    cases he
    obtain ⟨b, hb, hg⟩ := Py.bind_ok.mp hg
    obtain ⟨c, hc, hg⟩ := Py.bind_ok.mp hg
    exact ⟨b, c, by simpa using hb, packBI_length hc, (Except.ok.inj hg).symm⟩
  · cases hg

/-- Saving the index: its offsets are the first recorded ones. -/
theorem saveShx_ok {w w' : Writer D} {shx : List Byte} (h : w.saveShx = .ok (w', shx)) (he : ∀ o ∈ w.offsets, 2 ∣ o) :
    w.shapes.length ≤ w.offsets.length ∧ shxOffsets shx = .ok ((w.offsets.take w.shapes.length).map (fun o : Nat => (o : Int))) := by
  simp only [Writer.saveShx, Py.bind_ok] at h
  obtain ⟨w1, hw1, t, ht, hd, hhd, rows, hr, h⟩ := h
  cases h
  rw [withType_ok hw1] at hhd hr
  dsimp only at hhd hr
  obtain ⟨n, m, hn, hm, hlen, -, hhead⟩ := header_ok hhd
  obtain ⟨rws, rfl, hle, hrows⟩ := shxRecords_ok hr
  refine ⟨hle, ?_⟩
  obtain ⟨r, hr⟩ := hhead rws.flatten
  have hn := Except.ok.inj hn
  have hcount : (((n : Int) * 2 - 100) / 8).toNat = (w.offsets.take w.shapes.length).length := by
    rw [List.length_take, Nat.min_eq_left hle]
    omega
  have hrd := shxRows_read hd hlen hrows (fun o ho => he o (List.mem_of_mem_take ho))
  simp only [shxOffsets, hr, ok_bind, hcount]
  exact hrd

/-! ### Sizes -/

/-- Types whose size is computed right. -/
def Sized (t : Int) : Prop := t ≠ 13 ∧ t ≠ 15 ∧ t ≠ 18 ∧ t ≠ 28 ∧ t ≠ 31

theorem content_other {s s' : Shape D} {t : Int} {bs : List Byte} (ht : Sized t) (ht' : ¬ Plain t) (h : content s t = .ok (bs, s')) :
    bs.length = 4 := by
  simp only [Sized, Plain, not_or] at ht ht'
  obtain ⟨h1, h2, h3, h4, h5, h6, h7, h8⟩ := ht'
  obtain ⟨h9, h10, h11, h12, h13⟩ := ht
  simp [content, body, writeIf, changeIf, boxed, parted, pointed, zed, measured, single, Py.bind_ok, *] at h
  exact packI_length h.1

theorem content_size {s s' : Shape D} {t : Int} {bs : List Byte} (hc : content s t = .ok (bs, s')) (ht : Sized t) :
    8 + bs.length = recordSize t s ∧ (Parted t → ∃ ps, s.parts = some ps) := by
  by_cases hp : Plain t
  · have h1 : (t = 1 ∨ t = 11 ∨ t = 21) ∨ t = 8 ∨ Parted t := by simp only [Plain, Parted] at hp ⊢; omega
    rcases h1 with h1 | rfl | h1
    · obtain ⟨b0, x, y, q, q', ps, vs, h0, hp, rfl, hv, -, -⟩ := content_single h1 hc
      refine ⟨?_, by simp only [Parted]; omega⟩
      simp only [List.length_append, packI_length h0, encAll_length, hv]
      rcases h1 with rfl | rfl | rfl <;> simp [recordSize]
    · obtain ⟨b0, box, b3, b6, h0, hb, hbox, h3, h6, rfl, -⟩ := content_multi hc
      refine ⟨?_, by simp [Parted]⟩
      simp only [List.length_append, packI_length h0, encAll_length, packI_length h3, packPoints_length h6, hb]
      simp [recordSize]
      omega
    · obtain ⟨b0, box, parts, b2, b3, b4, b6, mm, ms, h0, hb, hbox, hp, h2, h3, h4, h6, hm, rfl, -⟩ := content_poly h1 hc
      refine ⟨?_, fun _ => ⟨parts, hp⟩⟩
      simp only [List.length_append, packI_length h0, encAll_length, packI_length h2, packI_length h3, packPoints_length h6,
        packIs_length h4, hb]
      have hm : if t = 23 ∨ t = 25 then mm.length = 2 ∧ ms.length = s.points.length else mm.length = 0 ∧ ms.length = 0 := by
        split at hm
        · rename_i hc; rw [if_pos hc]; exact ⟨hm.1, hm.2.2⟩
        · rename_i hc; rw [if_neg hc]; simp [hm]
      have hps : (s.parts.getD []).length = parts.length := by rw [hp]; rfl
      rcases h1 with rfl | rfl | rfl | rfl
      all_goals simp at hm
      all_goals simp only [recordSize, hps, hm]
      all_goals simp
      all_goals omega
  · refine ⟨?_, fun hq => absurd ?_ hp⟩
    · rw [content_other ht hp hc]
      simp only [Plain, not_or] at hp
      simp [recordSize, hp]
    · simp only [Plain, Parted] at hq ⊢; omega

theorem IsRec.size {n : Nat} {s s' : Shape D} {t : Int} {r : List Byte} (h : IsRec (some t) n s r s') (ht : Sized t) :
    r.length = recordSize t s ∧ (Parted t → ∃ ps, s.parts = some ps) := by
  obtain ⟨t', bs, bn, bl, hty, hc, hn, hl, rfl⟩ := h
  have hs : retype (some t) s = { s with shapeType := some t } := by
    have : t ≠ 31 := ht.2.2.2.2
    simp [retype, this]
  rw [hs] at hty hc
  cases hty
  obtain ⟨h1, h2⟩ := content_size hc ht
  have h1 : 8 + bs.length = recordSize t s := h1
  refine ⟨?_, h2⟩
  simp only [List.length_append, packBI_length hn, packBI_length hl]
  omega

theorem sizeOf_eq {s : Shape D} {t : Int} {np : Option Nat} (ht : Sized t) (hp : Parted t → ∃ ps, s.parts = some ps) :
    ∃ np', sizeOf t np s = .ok (recordSize t s, np') := by
  refine ⟨lastParts np s, ?_⟩
  by_cases hq : Plain t
  · have h1 : (t = 1 ∨ t = 11 ∨ t = 21) ∨ t = 8 ∨ Parted t := by simp only [Plain, Parted] at hq ⊢; omega
    rcases h1 with (rfl | rfl | rfl) | rfl | h1
    all_goals try simp [sizeOf, boxed, parted, pointed, zed, single, recordSize, partsSize, ok_bind, pure, Except.pure]
    · omega
    · obtain ⟨ps, hps⟩ := hp h1
      have hl : lastParts np s = some ps.length := by simp [lastParts, hps]
      rcases h1 with rfl | rfl | rfl | rfl
      all_goals simp [sizeOf, boxed, parted, pointed, zed, single, recordSize, hps, hl, partsSize, ok_bind, pure, Except.pure]
      all_goals omega
  · simp only [Plain, not_or] at hq
    simp only [Sized] at ht
    simp [sizeOf, boxed, parted, pointed, zed, single, recordSize, partsSize, ok_bind, pure, Except.pure, hq, ht]

theorem sizesOf_eq {t : Int} (ht : Sized t) {ss : List (Shape D)} (hp : ∀ s ∈ ss, Parted t → ∃ ps, s.parts = some ps) (np : Option Nat) :
    sizesOf t np ss = .ok (ss.map (recordSize t)).sum := by
  induction ss generalizing np with
  | nil => rfl
  | cons s ss ih =>
    obtain ⟨np', h⟩ := sizeOf_eq (np := np) ht (hp s (by simp))
    simp only [sizesOf, h, ok_bind, ih (fun s hs => hp s (by simp [hs]))]
    simp [pure, Except.pure]

theorem Recs.size {n : Nat} {ss ss' : List (Shape D)} {t : Int} {rs : List (List Byte)} (h : Recs (some t) n ss rs ss') (ht : Sized t) :
    rs.flatten.length = (ss.map (recordSize t)).sum ∧ ∀ s ∈ ss, Parted t → ∃ ps, s.parts = some ps := by
  generalize hw : some t = w at h
  induction h with
  | nil => simp
  | cons hr _ ih =>
    subst hw
    obtain ⟨h1, h2⟩ := hr.size ht
    obtain ⟨h3, h4⟩ := ih
    refine ⟨by simp only [List.flatten_cons, List.length_append, h1, h3, List.map_cons, List.sum_cons], ?_⟩
    intro s hs
    rcases List.mem_cons.mp hs with rfl | hs
    · exact h2
    · exact h4 s hs

/-! ### Saving succeeds -/

theorem mapM_exists {α β : Type} {f : α → Py β} (l : List α) (h : ∀ a ∈ l, ∃ b, f a = .ok b) : ∃ bs, l.mapM f = .ok bs := by
  induction l with
  | nil => exact ⟨[], rfl⟩
  | cons a l ih =>
    obtain ⟨b, hb⟩ := h a (by simp)
    obtain ⟨bs, hbs⟩ := ih (fun a ha => h a (by simp [ha]))
    exact ⟨b :: bs, by simp [hb, hbs, ok_bind, pure, Except.pure]⟩

theorem columns_of {points : List (List D)} (hne : points ≠ []) (h : ∀ p ∈ points, 2 ≤ p.length) :
    ∃ c, columns points = .ok c ∧ c.1 ≠ [] ∧ c.2 ≠ [] := by
  have : ∃ l : List (D × D), l.length = points.length ∧
      points.mapM xy = some l := by
    clear hne
    induction points with
    | nil => exact ⟨[], rfl, rfl⟩
    | cons p ps ih =>
      obtain ⟨l, hl, he⟩ := ih (fun p hp => h p (by simp [hp]))
      obtain ⟨x, y, q, rfl⟩ : ∃ x y q, p = x :: y :: q := by
        have := h p (by simp)
        match p, this with
        | x :: y :: q, _ => exact ⟨x, y, q, rfl⟩
      exact ⟨(x, y) :: l, by simp [hl], by rw [List.mapM_cons, he]; rfl⟩
  obtain ⟨l, hl, he⟩ := this
  match l, hl with
  | [], hl => simp at hl; exact absurd hl.symm (by simpa using hne)
  | a :: l, _ => exact ⟨((a :: l).map Prod.fst, (a :: l).map Prod.snd), by simp only [columns, he], by simp, by simp⟩

theorem minOf_of {l : List D} (h : l ≠ []) : ∃ v, minOf l = .ok v := by
  match l, h with
  | a :: l, _ => exact ⟨_, rfl⟩

theorem maxOf_of {l : List D} (h : l ≠ []) : ∃ v, maxOf l = .ok v := by
  match l, h with
  | a :: l, _ => exact ⟨_, rfl⟩

theorem bboxOf_of {ss : List (Shape D)} (hne : ss ≠ []) (h : ∀ s ∈ ss, s.points ≠ [] ∧ ∀ p ∈ s.points, 2 ≤ p.length) :
    ∃ box, bboxOf ss = .ok box := by
  obtain ⟨cs, hcs⟩ := mapM_exists (f := fun s : Shape D => columns s.points) ss
    (fun s hs => (columns_of (h s hs).1 (h s hs).2).imp (fun _ hc => hc.1))
  have hall : (cs.map Prod.fst).flatten ≠ [] ∧ (cs.map Prod.snd).flatten ≠ [] := by
    match ss, hne, hcs with
    | s :: ss, _, hcs =>
      simp only [List.mapM_cons, Py.bind_ok] at hcs
      obtain ⟨c, hc, cs', -, hcs⟩ := hcs
      cases hcs
      obtain ⟨c', hc', h1, h2⟩ := columns_of (h s (by simp)).1 (h s (by simp)).2
      rw [hc] at hc'
      cases hc'
      simp [h1, h2]
  obtain ⟨a, ha⟩ := minOf_of hall.1
  obtain ⟨b, hb⟩ := minOf_of hall.2
  obtain ⟨c, hc⟩ := maxOf_of hall.1
  obtain ⟨d, hd⟩ := maxOf_of hall.2
  exact ⟨[a, b, c, d], by simp only [bboxOf, hcs, ok_bind, ha, hb, hc, hd]; rfl⟩

theorem zboxOf_of (ss : List (Shape D)) : ∃ z, zboxOf ss = .ok z := by
  have hne : (if (ss.map (fun s => coordsUpTo 2 s.points)).flatten = [] then [(0 : D)]
      else (ss.map (fun s => coordsUpTo 2 s.points)).flatten) ≠ [] := by
    split
    · simp
    · assumption
  obtain ⟨a, ha⟩ := minOf_of hne
  obtain ⟨b, hb⟩ := maxOf_of hne
  exact ⟨[a, b], by simp only [zboxOf, ha, hb, ok_bind]; rfl⟩

theorem mboxOf_of (ss : List (Shape D)) : ∃ z, mboxOf ss = .ok z := ⟨_, rfl⟩

theorem header_of {n : Nat} (hn : n ≤ 2147483647) {t : Int} (ht : Plain t) {ss : List (Shape D)} (hne : ss ≠ [])
    (h : ∀ s ∈ ss, s.points ≠ [] ∧ ∀ p ∈ s.points, 2 ≤ p.length) : ∃ hd, header (.ok n) t ss = .ok hd := by
  obtain ⟨b1, h1⟩ := mapM_exists (f := packBI) [9994, 0, 0, 0, 0, 0] (by
    intro a ha
    apply packBI_of <;> simp at ha <;> omega)
  obtain ⟨b2, h2⟩ := packBI_of (v := n) (by omega) (by omega)
  have h3 := packI_of (v := 1000) (by omega) (by omega)
  have h4 := packI_of (v := t) (by simp only [Plain] at ht; omega) (by simp only [Plain] at ht; omega)
  obtain ⟨box, hbox⟩ := bboxOf_of hne h
  obtain ⟨z, hz⟩ := zboxOf_of ss
  obtain ⟨m, hm⟩ := mboxOf_of ss
  have h0 : t ≠ 0 := by rintro rfl; simp [Plain] at ht
  have hb : headerBox t ss = .ok box := by simp [headerBox, h0, hbox]
  exact ⟨_, by simp only [header, h1, h2, h3, h4, hb, hz, hm, ok_bind]; rfl⟩

theorem content_of {t : Int} (ht : Plain t) {s : Shape D} (h : Fine t s) (hs : recordSize t s ≤ 8589934592) :
    ∃ bs s', content s t = .ok (bs, s') := by
  have h0 := packI_of (v := t) (by simp only [Plain] at ht; omega) (by simp only [Plain] at ht; omega)
  have h1 : (t = 1 ∨ t = 11 ∨ t = 21) ∨ t = 8 ∨ Parted t := by simp only [Plain, Parted] at ht ⊢; omega
  rcases h1 with h1 | h1
  · obtain ⟨x, y, z, m, q, ps, hp⟩ : ∃ x y z m q ps, s.points = (x :: y :: z :: m :: q) :: ps := by
      match hp : s.points, h.2.1.1 with
      | p :: ps, _ =>
        have := h.2.1.2 p (by simp [hp])
        match p, this with
        | x :: y :: z :: m :: q, _ => exact ⟨x, y, z, m, q, ps, rfl⟩
    rcases h1 with rfl | h1
    · exact ⟨_, _, by simp [content, h0, body, writeIf, changeIf, boxed, parted, pointed, zed, measured, single, ok_bind, packFirst, hp]; exact ⟨rfl, rfl⟩⟩
    obtain ⟨hz, hm⟩ := h.1 h1
    have l3 : ¬ q.length + 1 + 1 + 1 + 1 < 3 := by omega
    have l4 : ¬ q.length + 1 + 1 + 1 + 1 < 4 := by omega
    have hz' : pointZ s = .ok (Double.enc z, { s with points := (x :: y :: z :: m :: q) :: ps }) := by simp [pointZ, hz, hp, l3]
    have hm' : pointM s = .ok (Double.enc m, { s with points := (x :: y :: z :: m :: q) :: ps }) := by simp [pointM, hm, hp, l4]
    have hm'' : pointM { s with points := (x :: y :: z :: m :: q) :: ps } = .ok (Double.enc m, { s with points := (x :: y :: z :: m :: q) :: ps }) := by
      simp [pointM, hm, l4]
    rcases h1 with rfl | rfl
    all_goals exact ⟨_, _, by simp [content, h0, body, writeIf, changeIf, boxed, parted, pointed, zed, measured, single, ok_bind, packFirst, hp, hz', hm', hm'']; exact ⟨rfl, rfl⟩⟩
  · obtain ⟨hne, hall⟩ := h.2.1
    obtain ⟨box, hbox⟩ := bboxOf_of (ss := [s]) (by simp) (by simpa [hne] using fun p hp => by have := hall p hp; omega)
    obtain ⟨b6, h6⟩ := mapM_exists (f := packPoint) s.points (by
      intro p hp
      have := hall p hp
      match p, this with
      | x :: y :: q, _ => exact ⟨_, rfl⟩)
    obtain ⟨b8, h8⟩ := mapM_exists (f := packM) s.points (by
      intro p hp
      have := hall p hp
      match p, this with
      | x :: y :: z :: m :: q, _ => exact ⟨_, rfl⟩)
    obtain ⟨mm, hmm⟩ := mboxOf_of [s]
    have hlen : s.points.length ≤ 2147483647 := by
      simp only [recordSize] at hs
      rcases h1 with rfl | rfl | rfl | rfl | rfl <;> simp at hs <;> omega
    have h3 := packI_of (v := s.points.length) (by omega) (by omega)
    rcases h1 with rfl | h1
    · exact ⟨_, _, by simp [content, h0, body, writeIf, changeIf, boxed, parted, pointed, zed, measured, single, ok_bind, hbox, h3, h6]; exact ⟨rfl, rfl⟩⟩
    · obtain ⟨ps, hps, hv⟩ := h.2.2 h1
      have hlp : ps.length ≤ 2147483647 := by
        simp only [recordSize] at hs
        rcases h1 with rfl | rfl | rfl | rfl <;> simp [hps] at hs <;> omega
      have h2 := packI_of (v := ps.length) (by omega) (by omega)
      obtain ⟨b4, h4⟩ := mapM_exists (f := packI) ps (by
        intro v hv'
        have := hv v hv'
        exact ⟨_, packI_of (by omega) (by omega)⟩)
      have ha : attr s.parts = .ok ps := by rw [hps]; rfl
      rcases h1 with rfl | rfl | rfl | rfl
      all_goals exact ⟨_, _, by simp [content, h0, body, writeIf, changeIf, boxed, parted, pointed, zed, measured, single, ok_bind, hbox, h3, h6, ha, h2, packAll, h4, h8, hmm]; exact ⟨rfl, rfl⟩⟩

theorem recordSize_even (t : Int) (s : Shape D) : 2 ∣ recordSize t s ∧ 12 ≤ recordSize t s := by
  simp only [recordSize]
  split_ifs <;> omega

theorem sum_even {ss : List (Shape D)} (t : Int) : 2 ∣ (ss.map (recordSize t)).sum ∧ 12 * ss.length ≤ (ss.map (recordSize t)).sum := by
  induction ss with
  | nil => simp
  | cons s ss ih =>
    have := recordSize_even t s
    simp only [List.map_cons, List.sum_cons, List.length_cons]
    omega

theorem recordsLoop_of {t : Int} (ht : Plain t) {n : Nat} {f : File} (hf : f.pos = f.data.length) {offs lens : List Nat}
    {ss : List (Shape D)} (h : ∀ s ∈ ss, Fine t s ∧ recordSize t s ≤ 4294967294) (hn : n + ss.length ≤ 2147483648) :
    ∃ res, recordsLoop (some t) n f offs lens ss = .ok res := by
  induction ss generalizing n f offs lens with
  | nil => exact ⟨_, rfl⟩
  | cons s ss ih =>
    obtain ⟨hfine, hsize⟩ := h s (by simp)
    have h31 : t ≠ 31 := by rintro rfl; simp [Plain] at ht
    have hs : retype (some t) s = { s with shapeType := some t } := by simp [retype, h31]
    simp only [List.length_cons] at hn
    obtain ⟨bn, hbn⟩ := packBI_of (v := n) (by omega) (by omega)
    obtain ⟨b0, hb0⟩ := packBI_of (v := 0) (by omega) (by omega)
    obtain ⟨bs, s', hc⟩ := content_of ht (s := { s with shapeType := some t }) hfine (by
      have : recordSize t { s with shapeType := some t } = recordSize t s := rfl
      omega)
    have hlen : ((f.write (bn ++ b0)).write bs).pos - (f.write (bn ++ b0)).pos = bs.length := by
      simp [File.write]
    have hsz : 8 + bs.length = recordSize t s := (content_size hc (by simp only [Plain, Sized] at ht ⊢; omega)).1
    obtain ⟨bl, hbl⟩ := packBI_of (v := (bs.length / 2 : Nat)) (by omega) (by omega)
    have ln := packBI_length hbn
    have l0 := packBI_length hb0
    have ll := packBI_length hbl
    have w1 := write_end hf (bn ++ b0)
    have w2 : (f.write (bn ++ b0)).write bs = ⟨f.data ++ (bn ++ b0) ++ bs, (f.data ++ (bn ++ b0) ++ bs).length⟩ := by
      rw [w1, write_end rfl]
    have w3 : ((((f.write (bn ++ b0)).write bs).seek ((f.write (bn ++ b0)).pos - 4)).write bl).seek ((f.write (bn ++ b0)).write bs).pos =
        ⟨f.data ++ (bn ++ (bl ++ bs)), (f.data ++ (bn ++ (bl ++ bs))).length⟩ := by
      rw [w2, w1, write_patch f.data bn b0 bl bs (by omega) _ (by simp; omega)]
      simp [File.seek]
      omega
    obtain ⟨res, hres⟩ := ih (n := n + 1) (f := ⟨f.data ++ (bn ++ (bl ++ bs)), (f.data ++ (bn ++ (bl ++ bs))).length⟩) rfl
      (offs := offs ++ [f.pos]) (lens := lens ++ [bs.length / 2]) (fun s hs => h s (by simp [hs])) (by omega)
    exact ⟨(res.1, res.2.1, res.2.2.1, s' :: res.2.2.2), by simp only [recordsLoop, hs, number, hbn, hb0, ok_bind, hc, hlen, hbl, w3, hres]; rfl⟩

theorem le_sum {ss : List (Shape D)} {t : Int} {s : Shape D} (h : s ∈ ss) : recordSize t s ≤ (ss.map (recordSize t)).sum := by
  induction ss with
  | nil => simp at h
  | cons a ss ih =>
    rcases List.mem_cons.mp h with rfl | h
    · simp
    · have := ih h
      simp only [List.map_cons, List.sum_cons]
      omega

theorem saveShp_of {w : Writer D} {t : Int} (hft : fileType w = some t) (ht : Plain t) (hne : w.shapes ≠ []) (h : ∀ s ∈ w.shapes, Fine t s)
    (hsize : 100 + (w.shapes.map (recordSize t)).sum ≤ 4294967294) : ∃ w' data, w.saveShp = .ok (w', data) := by
  have hw : w.withType = .ok { w with shapeType := some t } := by
    simp only [Writer.withType, fileType] at hft ⊢
    split at hft
    · rename_i hc
      rw [if_pos hc]
      match hs : w.shapes, hne with
      | s :: ss, _ =>
        simp only [hs, List.head?_cons, Option.bind_some] at hft
        simp [hft]
    · rename_i hc
      rw [if_neg hc, ← hft]
  have hsz : Sized t := by simp only [Plain, Sized] at ht ⊢; omega
  have hlen : shpFileLength t w.shapes = .ok ((100 + (w.shapes.map (recordSize t)).sum) / 2) := by
    simp only [shpFileLength, sizesOf_eq hsz (fun s hs hp => ((h s hs).2.2 hp).imp (fun _ hh => hh.1)) none, ok_bind]
    rfl
  obtain ⟨hd, hhd⟩ := header_of (n := (100 + (w.shapes.map (recordSize t)).sum) / 2) (by omega) ht hne (fun s hs =>
    ⟨(h s hs).2.1.1, fun p hp => by have := (h s hs).2.1.2 p hp; omega⟩)
  obtain ⟨-, -, -, -, hl, -⟩ := header_ok hhd
  have hcount := (sum_even (ss := w.shapes) t).2
  obtain ⟨res, hres⟩ := recordsLoop_of ht (n := 1) (f := (File.mk hd hd.length).seek 100) (by simp [File.seek, hl])
    (offs := w.offsets) (lens := w.lengths) (ss := w.shapes) (fun s hs => ⟨h s hs, by have := le_sum (t := t) hs; omega⟩) (by omega)
  exact ⟨_, _, by simp only [Writer.saveShp, hw, ok_bind, number, hlen, hhd, hres]; rfl⟩

/-! ### Saving both files -/

theorem save_ok {w w' : Writer D} {shp shx : List Byte} (h : w.save = .ok (w', shp, shx)) :
    ∃ w1, w.saveShp = .ok (w1, shp) ∧ w1.saveShx = .ok (w', shx) := by
  simp only [Writer.save, Py.bind_ok] at h
  obtain ⟨⟨w1, shp1⟩, h1, ⟨w2, shx1⟩, h2, h⟩ := h
  cases h
  exact ⟨w1, h1, h2⟩

theorem saveShx_state {w w' : Writer D} {shx : List Byte} (h : w.saveShx = .ok (w', shx)) : w' = { w with shapeType := fileType w } := by
  simp only [Writer.saveShx, Py.bind_ok] at h
  obtain ⟨w1, hw1, t, ht, hd, hhd, rows, hr, h⟩ := h
  cases h
  exact withType_ok hw1

/-- Everything about saving both files, when all offsets recorded before are even. -/
theorem save_all {w w' : Writer D} {shp shx : List Byte} (h : w.save = .ok (w', shp, shx)) (he : ∀ o ∈ w.offsets, 2 ∣ o) :
    ∃ t n m hd rs, fileType w = some t ∧ (t ≠ 0 → w'.shapeType = some t) ∧ mboxOf w.shapes = .ok m ∧ hd.length = 100 ∧
      shp = hd ++ rs.flatten ∧ Recs (some t) 1 w.shapes rs w'.shapes ∧ w'.offsets = w.offsets ++ starts 100 rs ∧
      shpHeader shp = .ok ((n : Int) * 2, t, m) ∧
      shxOffsets shx = .ok (((w.offsets ++ starts 100 rs).take w.shapes.length).map (fun o : Nat => (o : Int))) := by
  obtain ⟨w1, h1, h2⟩ := save_ok h
  obtain ⟨t, n, m, hd, rs, hft, ht', hn, hm, hhd, hdata, hrecs, hoffs, hlens, hhead⟩ := saveShp_ok h1
  have hst := saveShx_state h2
  have hl := hrecs.length_ss.2
  obtain ⟨-, hshx⟩ := saveShx_ok h2 (by
    intro o ho
    rw [hoffs] at ho
    rcases List.mem_append.mp ho with ho | ho
    · exact he o ho
    · exact hrecs.even 100 (by decide) o ho)
  refine ⟨t, n, m, hd, rs, hft, ?_, hm, hhd, hdata, by rw [hst]; exact hrecs, by rw [hst]; exact hoffs, hhead, ?_⟩
  · intro h0
    rw [hst]
    show fileType w1 = some t
    simp [fileType, ht', h0]
  · rw [hshx, hoffs, hl]

theorem indexRight_of {w : Option Int} {n : Nat} {ss ss' : List (Shape D)} {rs : List (List Byte)} (h : Recs w n ss rs ss') {hd shx : List Byte}
    (hhd : hd.length = 100) (hshx : shxOffsets shx = .ok ((starts 100 rs).map (fun o : Nat => (o : Int)))) (noM : Bool) :
    IndexRight D noM (hd ++ rs.flatten) shx := by
  intro l hl
  rw [← hhd] at hl
  obtain ⟨h1, h2, h3⟩ := h.visits hd hl
  rw [hhd] at h2 h3
  refine ⟨_, hshx, by simp [h1, h2], ?_⟩
  intro i o hi
  rw [List.getElem?_map, Option.map_eq_some_iff] at hi
  obtain ⟨o, ho, rfl⟩ := hi
  obtain ⟨out, next, hout, hat⟩ := h3 i o ho
  refine ⟨?_, out, next, hout, by simpa using hat⟩
  have : ∀ (p : Nat) (rs : List (List Byte)), ∀ o ∈ starts p rs, p ≤ o := by
    intro p rs
    induction rs generalizing p with
    | nil => simp [starts]
    | cons r rs ih =>
      intro o ho
      rcases List.mem_cons.mp ho with rfl | ho
      · exact Nat.le_refl _
      · have := ih _ o ho; omega
  have := this 100 rs o (List.mem_of_getElem? ho)
  omega

/-- Where records start, by their sizes. -/
def startsOf : Nat → List Nat → List Nat
  | _, [] => []
  | p, k :: ks => p :: startsOf (p + k) ks

theorem Recs.starts_eq {n : Nat} {ss ss' : List (Shape D)} {t : Int} {rs : List (List Byte)} (h : Recs (some t) n ss rs ss') (ht : Sized t) (p : Nat) :
    starts p rs = startsOf p (ss.map (recordSize t)) := by
  generalize hw : some t = w at h
  induction h generalizing p with
  | nil => rfl
  | cons hr _ ih =>
    subst hw
    simp only [starts, List.map_cons, startsOf, ih, (hr.size ht).1]

theorem IsRec.keeps {n : Nat} {s s' : Shape D} {t : Int} {r : List Byte} (h : IsRec (some t) n s r s') (ht : Plain t) :
    recordSize t s' = recordSize t s := by
  obtain ⟨t', bs, bn, bl, hty, hc, hn, hl, rfl⟩ := h
  have h31 : t ≠ 31 := by rintro rfl; simp [Plain] at ht
  have hs : retype (some t) s = { s with shapeType := some t } := by simp [retype, h31]
  rw [hs] at hty hc
  cases hty
  have h1 : (t = 1 ∨ t = 11 ∨ t = 21) ∨ t = 8 ∨ Parted t := by simp only [Plain, Parted] at ht ⊢; omega
  have : s'.points.length = s.points.length ∧ s'.parts = s.parts := by
    rcases h1 with h1 | rfl | h1
    · obtain ⟨b0, x, y, q, q', ps, vs, h0, hp, rfl, hv, hp', hpa⟩ := content_single h1 hc
      have hp : s.points = (x :: y :: q) :: ps := hp
      exact ⟨by rw [hp', hp]; rfl, hpa⟩
    · obtain ⟨b0, box, b3, b6, h0, hb, hbox, h3, h6, rfl, rfl⟩ := content_multi hc
      exact ⟨rfl, rfl⟩
    · obtain ⟨b0, box, parts, b2, b3, b4, b6, mm, ms, h0, hb, hbox, hp, h2, h3, h4, h6, hm, rfl, rfl⟩ := content_poly h1 hc
      exact ⟨rfl, rfl⟩
  simp only [recordSize, this]

theorem Recs.keeps {n : Nat} {ss ss' : List (Shape D)} {t : Int} {rs : List (List Byte)} (h : Recs (some t) n ss rs ss') (ht : Plain t) :
    ss'.map (recordSize t) = ss.map (recordSize t) := by
  generalize hw : some t = w at h
  induction h with
  | nil => rfl
  | cons hr _ ih =>
    subst hw
    rw [List.map_cons, List.map_cons, ih, hr.keeps ht]

theorem startsOf_length (p : Nat) (l : List Nat) : (startsOf p l).length = l.length := by
  induction l generalizing p with
  | nil => rfl
  | cons r rs ih => simp [startsOf, ih]

/-- Saving over and over: the offsets pile up, the first ones are right. -/
theorem Saves.inv {w w' : Writer D} {shp shx : List Byte} (h : Saves w w' shp shx) {t : Int} (hft : fileType w = some t) (ht : Plain t)
    (h0 : w.offsets = []) :
    (∀ noM, IndexRight D noM shp shx) ∧ w'.shapeType = some t ∧ w'.shapes.map (recordSize t) = w.shapes.map (recordSize t) ∧
      (∃ more, w'.offsets = startsOf 100 (w.shapes.map (recordSize t)) ++ more) ∧ ∀ o ∈ w'.offsets, 2 ∣ o := by
  have hsz : Sized t := by simp only [Plain, Sized] at ht ⊢; omega
  have ht0 : t ≠ 0 := by rintro rfl; simp [Plain] at ht
  induction h with
  | once h =>
    obtain ⟨t', n, m, hd, rs, hft', hty, hm, hhd, rfl, hrecs, hoffs, hhead, hshx⟩ := save_all h (by simp [h0])
    rw [hft] at hft'
    cases hft'
    rw [h0, List.nil_append] at hshx hoffs
    rw [List.take_of_length_le (by rw [starts_length, hrecs.length_ss.1]; exact Nat.le_refl _)] at hshx
    refine ⟨indexRight_of hrecs hhd hshx, hty ht0, hrecs.keeps ht, ⟨[], by rw [hoffs, hrecs.starts_eq hsz]; simp⟩, ?_⟩
    rw [hoffs]
    exact hrecs.even 100 (by decide)
  | again h1 h2 ih =>
    obtain ⟨-, hty1, hsizes, ⟨more, hmore⟩, heven⟩ := ih
    obtain ⟨t', n, m, hd, rs, hft', hty, hm, hhd, rfl, hrecs, hoffs, hhead, hshx⟩ := save_all h2 heven
    have : some t = some t' := by
      rw [← hft']
      simp [fileType, hty1, ht0]
    cases this
    have hst := hrecs.starts_eq hsz 100
    rw [hsizes] at hst
    have hshx' := hshx
    rw [hmore, ← hst, List.append_assoc, List.take_left' (by rw [starts_length, hrecs.length_ss.1])] at hshx'
    refine ⟨indexRight_of hrecs hhd hshx', hty ht0, (hrecs.keeps ht).trans hsizes, ⟨more ++ starts 100 rs, by rw [hoffs, hmore]; simp⟩, ?_⟩
    intro o ho
    rw [hoffs] at ho
    rcases List.mem_append.mp ho with ho | ho
    · exact heven o ho
    · exact hrecs.even 100 (by decide) o ho

/-! ### Parts -/

/-- Where parts start. -/
def offsetsOf {α : Type} : Nat → List (List α) → List Int
  | _, [] => []
  | n, p :: ps => (n : Int) :: offsetsOf (n + p.length) ps

theorem polyLoop_eq (starts0 : List Int) (pts : List (List D)) (parts : List (List (List D))) :
    polyLoop starts0 pts parts = (starts0 ++ offsetsOf pts.length parts, pts ++ (parts.map (List.map pad4)).flatten) := by
  induction parts generalizing starts0 pts with
  | nil => simp [polyLoop, offsetsOf]
  | cons p ps ih => simp [polyLoop, ih, offsetsOf]

theorem offsetsOf_map {α β : Type} (f : α → β) (n : Nat) (parts : List (List α)) : offsetsOf n (parts.map (List.map f)) = offsetsOf n parts := by
  induction parts generalizing n with
  | nil => rfl
  | cons p ps ih => simp [offsetsOf, ih]

theorem cut_offsets {α : Type} (pre : List α) (parts : List (List α)) : cut (offsetsOf pre.length parts) (pre ++ parts.flatten) = parts := by
  induction parts generalizing pre with
  | nil => rfl
  | cons p ps ih =>
    have ih' := ih (pre ++ p)
    simp only [List.length_append] at ih'
    cases ps with
    | nil => simp [offsetsOf, cut]
    | cons q ps =>
      simp only [offsetsOf, cut, List.flatten_cons] at ih' ⊢
      rw [← List.append_assoc pre p, ih']
      congr 1
      rw [Int.toNat_natCast, Int.toNat_natCast, List.take_left' (by simp), List.drop_left]

theorem offsetsOf_range {α : Type} (n : Nat) (parts : List (List α)) : ∀ v ∈ offsetsOf n parts, 0 ≤ v ∧ v ≤ n + parts.flatten.length := by
  induction parts generalizing n with
  | nil => simp [offsetsOf]
  | cons p ps ih =>
    intro v hv
    rcases List.mem_cons.mp hv with rfl | hv
    · omega
    · have := ih _ v hv
      simp only [List.flatten_cons, List.length_append]
      omega

theorem pad4_eq (p : List D) : pad4 p = four p := by
  simp only [pad4, four]
  split
  · rename_i h
    match p, h with
    | [], _ => rfl
    | [a], _ => rfl
    | [a, b], _ => rfl
    | [a, b, c], _ => rfl
    | _ :: _ :: _ :: _ :: _, h => simp at h; omega
  · rename_i h
    rw [show 4 - p.length = 0 by omega]
    simp

theorem four_length (p : List D) : 4 ≤ (four p).length := by
  simp only [four]
  split
  · simp
  · omega

theorem closePart_ok {part ring : List (List D)} (h : closePart part = .ok ring) : Closes part ring := by
  simp only [closePart] at h
  split at h
  · rename_i a b ha hb
    cases h
    split
    · rename_i hne
      exact ⟨by simp, by simp [ha], Or.inr ⟨by simpa [ha, hb] using hne, a, ha, rfl⟩⟩
    · rename_i he
      refine ⟨(by intro hn; rw [hn] at ha; cases ha), ?_, Or.inl ⟨?_, rfl⟩⟩
      all_goals simp only [not_not] at he; rw [ha, hb, he]
  · cases h

theorem poly_ok {w w' : Writer D} {parts : List (List (List D))} {t : Int} (h : w.poly parts t = .ok w') :
    ∃ rings s, w' = { w with shapes := w.shapes ++ [s] } ∧ s.shapeType = some t ∧ s.z = none ∧ s.m = none ∧
      (if t ∈ ([5, 15, 25, 31] : List Int) then List.Forall₂ Closes parts rings else rings = parts) ∧
      s.points = (rings.map (List.map four)).flatten ∧ s.parts = some (offsetsOf 0 rings) := by
  simp only [Writer.poly] at h
  split at h
  · rename_i hc
    obtain ⟨rings, hr, h⟩ := Py.bind_ok.mp h
    cases h
    rw [Py.mapM_ok] at hr
    have e : (fun p : List D => pad4 p) = four := funext pad4_eq
    refine ⟨rings, _, rfl, rfl, rfl, rfl, ?_, ?_, ?_⟩
    · rw [if_pos hc]; exact hr.imp (fun _ _ => closePart_ok)
    · simp [polyLoop_eq, ← e]
    · simp [polyLoop_eq]
  · rename_i hc
    obtain ⟨rings, hr, h⟩ := Py.bind_ok.mp h
    cases hr
    cases h
    have e : (fun p : List D => pad4 p) = four := funext pad4_eq
    refine ⟨parts, _, rfl, rfl, rfl, rfl, ?_, ?_, ?_⟩
    · rw [if_neg hc]
    · simp [polyLoop_eq, ← e]
    · simp [polyLoop_eq]

/-! ### Measures -/

theorem foldl_min_le (a : D) (l : List D) : l.foldl min a ≤ a ∧ ∀ m ∈ l, l.foldl min a ≤ m := by
  induction l generalizing a with
  | nil => simp
  | cons b l ih =>
    obtain ⟨h1, h2⟩ := ih (min a b)
    refine ⟨le_trans h1 (min_le_left a b), ?_⟩
    intro m hm
    rcases List.mem_cons.mp hm with rfl | hm
    · exact le_trans h1 (min_le_right a m)
    · exact h2 m hm

theorem foldl_max_le (a : D) (l : List D) : a ≤ l.foldl max a ∧ ∀ m ∈ l, m ≤ l.foldl max a := by
  induction l generalizing a with
  | nil => simp
  | cons b l ih =>
    obtain ⟨h1, h2⟩ := ih (max a b)
    refine ⟨le_trans (le_max_left a b) h1, ?_⟩
    intro m hm
    rcases List.mem_cons.mp hm with rfl | hm
    · exact le_trans (le_max_right a m) h1
    · exact h2 m hm

theorem foldl_min_eq (a : D) (l : List D) (h : ∀ m ∈ l, a ≤ m) : l.foldl min a = a := by
  induction l with
  | nil => rfl
  | cons b l ih =>
    rw [List.foldl_cons, min_eq_left (h b (by simp)), ih (fun m hm => h m (by simp [hm]))]

theorem foldl_max_eq (a : D) (l : List D) (h : ∀ m ∈ l, m ≤ a) : l.foldl max a = a := by
  induction l with
  | nil => rfl
  | cons b l ih =>
    rw [List.foldl_cons, max_eq_left (h b (by simp)), ih (fun m hm => h m (by simp [hm]))]

theorem coordsUpTo_eq {points : List (List D)} {ms : List D} (h : points.map (fun p => p[3]?) = ms.map some) :
    coordsUpTo 3 points = ms ∧ points.filterMap (fun p => p[3]?) = ms := by
  induction points generalizing ms with
  | nil =>
    cases ms with
    | nil => exact ⟨rfl, rfl⟩
    | cons => simp at h
  | cons p ps ih =>
    cases ms with
    | nil => simp at h
    | cons m ms =>
      simp only [List.map_cons, List.cons.injEq] at h
      obtain ⟨h1, h2⟩ := ih h.2
      refine ⟨by simp [coordsUpTo, h.1, h1], by simp [h.1, h2]⟩

theorem coordsUpTo_sub (points : List (List D)) : ∀ v ∈ coordsUpTo 3 points, v ∈ points.filterMap (fun p => p[3]?) := by
  induction points with
  | nil => simp [coordsUpTo]
  | cons p ps ih =>
    simp only [coordsUpTo]
    split
    · rename_i v hv
      intro u hu
      rcases List.mem_cons.mp hu with rfl | hu
      · simp [hv]
      · have := ih u hu
        rw [List.filterMap_cons, hv]
        exact List.mem_cons_of_mem _ this
    · simp

end

end Shapefile
end Coral
