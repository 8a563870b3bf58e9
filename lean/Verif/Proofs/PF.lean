import Verif.Spec.PF
import Verif.Proofs.Vlv
import Verif.Proofs.BBox
import Verif.Proofs.Grid
import Mathlib.Tactic.LinearCombination
import Mathlib.Tactic.Positivity
import Mathlib.Algebra.Order.Floor.Ring

set_option linter.unusedSectionVars false

namespace Coral
section
variable {K : Type} [Field K] [LinearOrder K] [IsStrictOrderedRing K] [FloorRing K]

/-! ### The wrapping loops -/

theorem while_up (lo d : K) (hd : 0 < d) (n : Nat) (x : K) (h : x + d * n < lo + d) (h2 : lo ≤ x + d * n) :
    While (fun x : K => x < lo) (fun x => x + d) x (x + d * n) := by
  induction n generalizing x with
  | zero =>
    simp only [Nat.cast_zero, mul_zero, add_zero] at *
    exact .done (not_lt.mpr h2)
  | succ n ih =>
    have e : x + d * ((n + 1 : Nat) : K) = (x + d) + d * n := by push_cast; ring
    have hn : 0 ≤ d * (n : K) := by positivity
    rw [e] at h h2 ⊢
    exact .step (by linarith) (ih _ h h2)

theorem while_down (hi d : K) (hd : 0 < d) (n : Nat) (x : K) (h : hi - d < x - d * n) (h2 : x - d * n ≤ hi) :
    While (fun x : K => hi < x) (fun x => x - d) x (x - d * n) := by
  induction n generalizing x with
  | zero =>
    simp only [Nat.cast_zero, mul_zero, sub_zero] at *
    exact .done (not_lt.mpr h2)
  | succ n ih =>
    have e : x - d * ((n + 1 : Nat) : K) = (x - d) - d * n := by push_cast; ring
    have hn : 0 ≤ d * (n : K) := by positivity
    rw [e] at h h2 ⊢
    exact .step (by linarith) (ih _ h h2)

/-- The number of rounds as a natural number. -/
theorem ceil_nat (x d : K) (hd : 0 < d) (h : 0 < x) :
    ∃ n : Nat, (⌈x / d⌉ : K) = n ∧ x ≤ d * n ∧ d * n < x + d := by
  have hp : 0 < x / d := div_pos h hd
  have h0 : 0 ≤ ⌈x / d⌉ := (Int.ceil_pos.mpr hp).le
  have h1 := Int.le_ceil (x / d)
  have h2 := Int.ceil_lt_add_one (x / d)
  obtain ⟨n, hn⟩ := Int.eq_ofNat_of_zero_le h0
  refine ⟨n, by rw [hn]; simp, ?_, ?_⟩
  · rw [hn, Int.cast_natCast, div_le_iff₀ hd] at h1; linarith
  · rw [hn, Int.cast_natCast] at h2
    have : x / d * d = x := by field_simp
    nlinarith

theorem wrapLon_loops (lon : K) : ∃ mid,
    While (fun x : K => x < -180) (fun x => x + 360) lon mid ∧
    While (fun x : K => 180 < x) (fun x => x - 360) mid (wrapLon lon) := by
  simp only [wrapLon]
  split
  · rename_i h
    obtain ⟨n, e, h1, h2⟩ := ceil_nat (-180 - lon) 360 (by norm_num) (by linarith)
    rw [e]
    exact ⟨_, while_up _ _ (by norm_num) n _ (by linarith) (by linarith), .done (by push Not; linarith)⟩
  · rename_i h
    refine ⟨lon, .done h, ?_⟩
    split
    · rename_i h'
      obtain ⟨n, e, h1, h2⟩ := ceil_nat (lon - 180) 360 (by norm_num) (by linarith)
      rw [e]
      exact while_down _ _ (by norm_num) n _ (by linarith) (by linarith)
    · rename_i h'
      exact .done h'

theorem wrapLat_loops (lat v : K) (h : wrapLat lat = .ok v) : ∃ mid,
    While (fun x : K => x < -90) (fun x => x + 180) lat mid ∧
    While (fun x : K => 90 < x) (fun x => x + 180) mid v := by
  simp only [wrapLat] at h
  split at h
  · rename_i h'
    obtain ⟨n, e, h1, h2⟩ := ceil_nat (-90 - lat) 180 (by norm_num) (by linarith)
    rw [e] at h
    injection h with h
    subst h
    exact ⟨_, while_up _ _ (by norm_num) n _ (by linarith) (by linarith), .done (by push Not; linarith)⟩
  · rename_i h'
    split at h
    · simp at h
    · injection h with h
      subst h
      exact ⟨lat, .done h', .done (by assumption)⟩

theorem wrapLat_hangs (lat : K) : wrapLat lat = .hang ↔
    ¬ ∃ mid v, While (fun x : K => x < -90) (fun x => x + 180) lat mid ∧
      While (fun x : K => 90 < x) (fun x => x + 180) mid v := by
  constructor
  · intro h
    simp only [wrapLat] at h
    split at h
    · simp at h
    · rename_i h1
      split at h
      · rename_i h2
        rintro ⟨mid, v, hm, hv⟩
        have : mid = lat := (While.det (.done (cond := fun x : K => x < -90) h1) hm).symm
        subst this
        exact While.diverges (I := fun x : K => 90 < x) (fun s hs => hs) (fun s hs => by linarith) h2 ⟨v, hv⟩
      · simp at h
  · intro h
    cases hw : wrapLat lat with
    | hang => rfl
    | ok v => exact absurd (by obtain ⟨m, hm⟩ := wrapLat_loops lat v hw; exact ⟨m, v, hm⟩) h
    | raise e =>
      simp only [wrapLat] at hw
      split at hw
      · simp at hw
      · split at hw <;> simp at hw

theorem wrapLon_wraps (lon : K) : Wraps 180 lon (wrapLon lon) := by
  simp only [wrapLon]
  split
  · rename_i h
    obtain ⟨n, e, h1, h2⟩ := ceil_nat (-180 - lon) 360 (by norm_num) (by linarith)
    rw [e]
    exact ⟨by linarith, by linarith, ⟨n, by push_cast; ring⟩, by intros; linarith⟩
  · rename_i h
    split
    · rename_i h'
      obtain ⟨n, e, h1, h2⟩ := ceil_nat (lon - 180) 360 (by norm_num) (by linarith)
      rw [e]
      exact ⟨by linarith, by linarith, ⟨-n, by push_cast; ring⟩, by intros; linarith⟩
    · rename_i h'
      exact ⟨by linarith, by linarith, ⟨0, by simp⟩, by intros; rfl⟩

theorem wrapLat_wraps {lat v : K} (h : wrapLat lat = .ok v) : Wraps 90 lat v := by
  simp only [wrapLat] at h
  split at h
  · rename_i h'
    obtain ⟨n, e, h1, h2⟩ := ceil_nat (-90 - lat) 180 (by norm_num) (by linarith)
    rw [e] at h
    injection h with h
    subst h
    exact ⟨by linarith, by linarith, ⟨n, by push_cast; ring⟩, by intros; linarith⟩
  · rename_i h'
    split at h
    · simp at h
    · injection h with h
      subst h
      exact ⟨by linarith, by linarith, ⟨0, by simp⟩, by intros; rfl⟩

theorem wrapLat_ok {lat : K} (h : lat ≤ 90) : ∃ v, wrapLat lat = .ok v := by
  simp only [wrapLat]
  split
  · exact ⟨_, rfl⟩
  · rw [if_neg (by linarith)]; exact ⟨_, rfl⟩

theorem wrapPoint_wraps {p q : K × K} (h : wrapPoint p = .ok q) : WrapsPoint p q := by
  simp only [wrapPoint, Res.bind_ok] at h
  obtain ⟨v, hv, h⟩ := h
  injection h with h
  subst h
  exact ⟨wrapLon_wraps _, wrapLat_wraps hv⟩

theorem wrapPoint_ok {p : K × K} (h : p.2 ≤ 90) : ∃ q, wrapPoint p = .ok q := by
  obtain ⟨v, hv⟩ := wrapLat_ok h
  exact ⟨(wrapLon p.1, v), by simp only [wrapPoint, hv]; rfl⟩

/-! ### One `write` -/

theorem dropClosing_stored {w ring : List (K × K)} (h : dropClosing w = .ok ring) :
    w ≠ [] ∧ ((w.head? = w.getLast? ∧ ring = w.dropLast) ∨ (w.head? ≠ w.getLast? ∧ ring = w)) := by
  cases w with
  | nil => simp [dropClosing] at h
  | cons p ps =>
    simp only [dropClosing] at h
    injection h with h
    refine ⟨by simp, ?_⟩
    rw [List.getLast?_eq_some_getLast (by simp), List.head?_cons, ne_eq, Option.some_inj]
    split at h
    · rename_i hp; exact Or.inl ⟨hp, h.symm⟩
    · rename_i hp; exact Or.inr ⟨hp, h.symm⟩

theorem dropClosing_ok {w : List (K × K)} (h : w ≠ []) : ∃ r, dropClosing w = .ok r := by
  cases w with
  | nil => exact absurd rfl h
  | cons p ps => exact ⟨_, rfl⟩

/-- Everything a successful `write` did. -/
structure Wrote (w w' : PWriter) (name : List Nat) (polygons parts : List (List (K × K))) (bb : BBox K)
    (bytes : List Byte) : Prop where
  stored : List.Forall₂ StoredRing polygons parts
  box : partsBox none parts = .ok (some bb)
  packed : packParts w.size w.umax (dequantBox (quantBox bb) : QBox K) parts = .ok bytes
  result : w' = { w with entries := w.entries ++ [⟨name, parts.map List.length, quantBox bb⟩], data := w.data ++ bytes }

theorem forall₂_comp {α β γ : Type} {R : α → β → Prop} {S : β → γ → Prop} {l : List α} {m : List β} {n : List γ}
    (h : List.Forall₂ R l m) (h' : List.Forall₂ S m n) : List.Forall₂ (fun a c => ∃ b, R a b ∧ S b c) l n := by
  induction h generalizing n with
  | nil => cases h'; exact .nil
  | cons hr _ ih => cases h' with | cons hs ht => exact .cons ⟨_, hr, hs⟩ (ih ht)

theorem write_wrote {w w' : PWriter} {name : List Nat} {polygons : List (List (K × K))}
    (h : w.write name polygons = .ok w') : ∃ parts bb bytes, Wrote w w' name polygons parts bb bytes := by
  simp only [PWriter.write, Res.bind_ok, Res.lift_ok] at h
  obtain ⟨wrapped, h1, parts, h2, bb, h3, h4⟩ := h
  cases bb with
  | none => simp at h4
  | some bb =>
    simp only [Res.bind_ok, Res.lift_ok] at h4
    obtain ⟨bytes, h5, h6⟩ := h4
    injection h6 with h6
    refine ⟨parts, bb, bytes, ?_, h3, h5, h6.symm⟩
    rw [Res.mapM_ok] at h1
    rw [Py.mapM_ok] at h2
    refine (forall₂_comp h1 h2).imp ?_
    rintro poly ring ⟨m, hm, hr⟩
    rw [Res.mapM_ok] at hm
    exact ⟨m, hm.imp fun _ _ => wrapPoint_wraps, dropClosing_stored hr⟩

/-! ### Boxes -/

theorem union_tight {a b : BBox K} {ps qs : List (K × K)} (ha : a.Tight ps) (hb : b.Tight qs) :
    (a.union b).Tight (ps ++ qs) := by
  obtain ⟨⟨a1, m1, e1⟩, ⟨a2, m2, e2⟩, ⟨a3, m3, e3⟩, ⟨a4, m4, e4⟩⟩ := ha
  obtain ⟨⟨b1, n1, f1⟩, ⟨b2, n2, f2⟩, ⟨b3, n3, f3⟩, ⟨b4, n4, f4⟩⟩ := hb
  have l : ∀ {x}, x ∈ ps → x ∈ ps ++ qs := fun h => List.mem_append_left _ h
  have r : ∀ {x}, x ∈ qs → x ∈ ps ++ qs := fun h => List.mem_append_right _ h
  simp only [BBox.union]
  split
  · exact ⟨⟨b1, r n1, f1⟩, ⟨b2, r n2, f2⟩, ⟨b3, r n3, f3⟩, ⟨b4, r n4, f4⟩⟩
  · split
    · exact ⟨⟨a1, l m1, e1⟩, ⟨a2, l m2, e2⟩, ⟨a3, l m3, e3⟩, ⟨a4, l m4, e4⟩⟩
    · simp only [BBox.ofCorners, BBox.Tight]
      refine ⟨?_, ?_, ?_, ?_⟩
      · rcases min_choice a.x0 b.x0 with h | h <;> rw [h]
        exacts [⟨a1, l m1, e1⟩, ⟨b1, r n1, f1⟩]
      · rcases max_choice a.x1 b.x1 with h | h <;> rw [h]
        exacts [⟨a2, l m2, e2⟩, ⟨b2, r n2, f2⟩]
      · rcases min_choice a.y0 b.y0 with h | h <;> rw [h]
        exacts [⟨a3, l m3, e3⟩, ⟨b3, r n3, f3⟩]
      · rcases max_choice a.y1 b.y1 with h | h <;> rw [h]
        exacts [⟨a4, l m4, e4⟩, ⟨b4, r n4, f4⟩]

theorem ofPoints_ok {r : List (K × K)} {b : BBox K} (h : BBox.ofPoints r = .ok b) :
    b.WF ∧ (∀ q ∈ r, b.Covers q) ∧ b.Tight r := by
  cases r with
  | nil => simp [BBox.ofPoints] at h
  | cons p ps =>
    obtain ⟨b', h1, h2⟩ := BBox.ofPoints_spec p ps
    rw [h1] at h
    injection h with h
    rw [← h]
    exact h2

theorem posExtent_proper {r : List (K × K)} {b : BBox K} (h : BBox.ofPoints r = .ok b) (hr : PosExtent r) :
    b.Proper := by
  obtain ⟨_, hc, _⟩ := ofPoints_ok h
  obtain ⟨⟨p, hp, q, hq, hx⟩, ⟨p', hp', q', hq', hy⟩⟩ := hr
  obtain ⟨a1, _, _, _⟩ := hc p hp
  obtain ⟨_, a2, _, _⟩ := hc q hq
  obtain ⟨_, _, a3, _⟩ := hc p' hp'
  obtain ⟨_, _, _, a4⟩ := hc q' hq'
  exact ⟨by linarith, by linarith⟩

/-- The box after the loop over the parts: touched by points on each side, always; and covering all the points when
every part has positive extent. -/
theorem partsBox_some (parts : List (List (K × K))) (bb : BBox K) (ps : List (K × K)) {o : Option (BBox K)}
    (h : partsBox (some bb) parts = .ok o) (ht : bb.Tight ps) (hw : bb.WF) :
    ∃ bb', o = some bb' ∧ bb'.Tight (ps ++ parts.flatten) ∧ bb'.WF ∧
      (bb.Proper → (∀ q ∈ ps, bb.Covers q) → (∀ r ∈ parts, PosExtent r) →
        bb'.Proper ∧ ∀ q ∈ ps ++ parts.flatten, bb'.Covers q) := by
  induction parts generalizing bb ps with
  | nil =>
    injection h with h
    exact ⟨bb, h.symm, by simpa using ht, hw, fun h1 h2 _ => ⟨h1, by simpa using h2⟩⟩
  | cons r parts ih =>
    simp only [partsBox, Py.bind_ok] at h
    obtain ⟨b, hb, h⟩ := h
    obtain ⟨b1, b2, b3⟩ := ofPoints_ok hb
    obtain ⟨bb', e1, e2, e3, e4⟩ := ih (bb.union b) (ps ++ r) h (union_tight ht b3) (BBox.union_wf hw b1)
    refine ⟨bb', e1, by simpa using e2, e3, ?_⟩
    intro hp hc hr
    have hpb := posExtent_proper hb (hr r (by simp))
    have := e4 (BBox.union_isProper hp hpb) ?_ (fun r' h' => hr r' (by simp [h']))
    · simpa using this
    · intro q hq
      rw [BBox.union_proper hp hpb]
      rcases List.mem_append.mp hq with hq | hq
      · obtain ⟨c1, c2, c3, c4⟩ := hc q hq
        exact ⟨min_le_of_left_le c1, le_max_of_le_left c2, min_le_of_left_le c3, le_max_of_le_left c4⟩
      · obtain ⟨c1, c2, c3, c4⟩ := b2 q hq
        exact ⟨min_le_of_right_le c1, le_max_of_le_right c2, min_le_of_right_le c3, le_max_of_le_right c4⟩

theorem partsBox_none {parts : List (List (K × K))} {bb : BBox K} (h : partsBox none parts = .ok (some bb)) :
    bb.Tight parts.flatten ∧ bb.WF ∧ ((∀ r ∈ parts, PosExtent r) → bb.Proper ∧ ∀ q ∈ parts.flatten, bb.Covers q) := by
  cases parts with
  | nil => simp [partsBox] at h
  | cons r parts =>
    simp only [partsBox, Py.bind_ok] at h
    obtain ⟨b, hb, h⟩ := h
    obtain ⟨b1, b2, b3⟩ := ofPoints_ok hb
    obtain ⟨bb', e1, e2, e3, e4⟩ := partsBox_some parts b r h b3 b1
    injection e1 with e1
    subst e1
    exact ⟨by simpa using e2, e3, fun hr => by
      simpa using e4 (posExtent_proper hb (hr r (by simp))) b2 (fun r' h' => hr r' (by simp [h']))⟩

theorem partsBox_ok (o : Option (BBox K)) (parts : List (List (K × K))) (h : ∀ r ∈ parts, r ≠ []) :
    ∃ o', partsBox o parts = .ok o' ∧ (o ≠ none ∨ parts ≠ [] → o' ≠ none) := by
  induction parts generalizing o with
  | nil => exact ⟨o, rfl, by simp⟩
  | cons r parts ih =>
    cases r with
    | nil => exact absurd rfl (h [] (by simp))
    | cons p ps =>
      obtain ⟨b, hb, _⟩ := BBox.ofPoints_spec p ps
      cases o with
      | none =>
        obtain ⟨o', h1, h2⟩ := ih (some b) (fun r hr => h r (by simp [hr]))
        exact ⟨o', by simp only [partsBox, hb]; exact h1, fun _ => h2 (Or.inl (by simp))⟩
      | some bb =>
        obtain ⟨o', h1, h2⟩ := ih (some (bb.union b)) (fun r hr => h r (by simp [hr]))
        exact ⟨o', by simp only [partsBox, hb]; exact h1, fun _ => h2 (Or.inl (by simp))⟩

/-- Points of stored rings are on the globe. -/
theorem stored_range {polygons parts : List (List (K × K))} (h : List.Forall₂ StoredRing polygons parts) :
    ∀ p ∈ parts.flatten, -180 ≤ p.1 ∧ p.1 ≤ 180 ∧ -90 ≤ p.2 ∧ p.2 ≤ 90 := by
  have wr : ∀ {poly w : List (K × K)}, List.Forall₂ WrapsPoint poly w →
      ∀ p ∈ w, -180 ≤ p.1 ∧ p.1 ≤ 180 ∧ -90 ≤ p.2 ∧ p.2 ≤ 90 := by
    intro poly w hw
    induction hw with
    | nil => simp
    | cons hp _ ih =>
      intro p hp'
      rcases List.mem_cons.mp hp' with rfl | hp'
      · exact ⟨hp.1.1, hp.1.2.1, hp.2.1, hp.2.2.1⟩
      · exact ih p hp'
  induction h with
  | nil => simp
  | @cons poly ring _ _ hs _ ih =>
    intro p hp
    rw [List.flatten_cons, List.mem_append] at hp
    rcases hp with hp | hp
    · obtain ⟨w, hw, _, h | h⟩ := hs
      · exact wr hw p ((List.dropLast_sublist w).subset (h.2 ▸ hp))
      · exact wr hw p (h.2 ▸ hp)
    · exact ih p hp

/-- One side of the box, rounded down. -/
theorem quant_floor (v h : K) (hh : 0 < h) (h1 : -h ≤ v) (h2 : v ≤ h) :
    ∃ n : Nat, ⌊(v + h) * (umax2 : K) / (2 * h)⌋ = (n : Int) ∧ n ≤ 65535 ∧
      (n : K) * (2 * h / 65535) - h ≤ v ∧ v - ((n : K) * (2 * h / 65535) - h) < 2 * h / 65535 := by
  have hU : (umax2 : K) = 65535 := by norm_num [umax2]
  rw [hU]
  have f1 := Int.floor_le ((v + h) * 65535 / (2 * h))
  have f2 := Int.lt_floor_add_one ((v + h) * 65535 / (2 * h))
  have h0 : 0 ≤ ⌊(v + h) * 65535 / (2 * h)⌋ := Int.floor_nonneg.mpr (by apply div_nonneg <;> nlinarith)
  have hm : ⌊(v + h) * 65535 / (2 * h)⌋ ≤ 65535 := by
    have : ⌊(v + h) * 65535 / (2 * h)⌋ ≤ ⌊((65535 : Int) : K)⌋ := by
      apply Int.floor_le_floor
      rw [div_le_iff₀ (by linarith)]
      push_cast
      nlinarith
    rwa [Int.floor_intCast] at this
  obtain ⟨n, hn⟩ := Int.eq_ofNat_of_zero_le h0
  rw [hn] at f1 f2 hm
  rw [Int.cast_natCast, le_div_iff₀ (by linarith)] at f1
  rw [Int.cast_natCast, div_lt_iff₀ (by linarith)] at f2
  refine ⟨n, hn, by omega, ?_, ?_⟩
  · have : (n : K) * (2 * h / 65535) ≤ v + h := by
      rw [← mul_div_assoc, div_le_iff₀ (by norm_num)]; exact f1
    linarith
  · have : v + h < ((n : K) + 1) * (2 * h / 65535) := by
      rw [← mul_div_assoc, lt_div_iff₀ (by norm_num)]; exact f2
    linarith

/-- One side of the box, rounded up. -/
theorem quant_ceil (v h : K) (hh : 0 < h) (h1 : -h ≤ v) (h2 : v ≤ h) :
    ∃ n : Nat, ⌈(v + h) * (umax2 : K) / (2 * h)⌉ = (n : Int) ∧ n ≤ 65535 ∧
      v ≤ (n : K) * (2 * h / 65535) - h ∧ ((n : K) * (2 * h / 65535) - h) - v < 2 * h / 65535 := by
  have hU : (umax2 : K) = 65535 := by norm_num [umax2]
  rw [hU]
  have f1 := Int.le_ceil ((v + h) * 65535 / (2 * h))
  have f2 := Int.ceil_lt_add_one ((v + h) * 65535 / (2 * h))
  have h0 : 0 ≤ ⌈(v + h) * 65535 / (2 * h)⌉ := Int.ceil_nonneg (by apply div_nonneg <;> nlinarith)
  have hm : ⌈(v + h) * 65535 / (2 * h)⌉ ≤ 65535 := by
    rw [Int.ceil_le, div_le_iff₀ (by linarith)]
    push_cast
    nlinarith
  obtain ⟨n, hn⟩ := Int.eq_ofNat_of_zero_le h0
  rw [hn] at f1 f2 hm
  rw [Int.cast_natCast, div_le_iff₀ (by linarith)] at f1
  rw [Int.cast_natCast, ← sub_lt_iff_lt_add, lt_div_iff₀ (by linarith)] at f2
  refine ⟨n, hn, by omega, ?_, ?_⟩
  · have : v + h ≤ (n : K) * (2 * h / 65535) := by
      rw [← mul_div_assoc, le_div_iff₀ (by norm_num)]; exact f1
    linarith
  · have : ((n : K) - 1) * (2 * h / 65535) < v + h := by
      rw [← mul_div_assoc, div_lt_iff₀ (by norm_num)]; exact f2
    linarith

/-- The quantised box of points on the globe. -/
theorem quantBox_spec {bb : BBox K} {ps : List (K × K)} (ht : bb.Tight ps)
    (hr : ∀ p ∈ ps, -180 ≤ p.1 ∧ p.1 ≤ 180 ∧ -90 ≤ p.2 ∧ p.2 ≤ 90) :
    (∃ a b c d : Nat, a ≤ 65535 ∧ b ≤ 65535 ∧ c ≤ 65535 ∧ d ≤ 65535 ∧ quantBox bb = ⟨a, b, c, d⟩) ∧
    OnGrid (dequantBox (quantBox bb) : QBox K) ∧
    ((∀ q ∈ ps, bb.Covers q) → Hugs (dequantBox (quantBox bb) : QBox K) ps) ∧
    (bb.Proper → (dequantBox (quantBox bb) : QBox K).x0 < (dequantBox (quantBox bb) : QBox K).x1 ∧
      (dequantBox (quantBox bb) : QBox K).y0 < (dequantBox (quantBox bb) : QBox K).y1) := by
  obtain ⟨⟨p1, m1, e1⟩, ⟨p2, m2, e2⟩, ⟨p3, m3, e3⟩, ⟨p4, m4, e4⟩⟩ := ht
  obtain ⟨a, ha, ha1, ha2, ha3⟩ := quant_floor bb.x0 180 (by norm_num) (e1 ▸ (hr p1 m1).1) (e1 ▸ (hr p1 m1).2.1)
  obtain ⟨b, hb, hb1, hb2, hb3⟩ := quant_ceil bb.x1 180 (by norm_num) (e2 ▸ (hr p2 m2).1) (e2 ▸ (hr p2 m2).2.1)
  obtain ⟨c, hc, hc1, hc2, hc3⟩ := quant_floor bb.y0 90 (by norm_num) (e3 ▸ (hr p3 m3).2.2.1) (e3 ▸ (hr p3 m3).2.2.2)
  obtain ⟨d, hd, hd1, hd2, hd3⟩ := quant_ceil bb.y1 90 (by norm_num) (e4 ▸ (hr p4 m4).2.2.1) (e4 ▸ (hr p4 m4).2.2.2)
  have e360 : (2 : K) * 180 = 360 := by norm_num
  have e180 : (2 : K) * 90 = 180 := by norm_num
  rw [e360] at ha ha2 ha3 hb hb2 hb3
  rw [e180] at hc hc2 hc3 hd hd2 hd3
  have hq : quantBox bb = ⟨a, b, c, d⟩ := by
    simp only [quantBox, ha, hb, hc, hd]
  have hU : (umax2 : K) = 65535 := by norm_num [umax2]
  have hdq : (dequantBox (quantBox bb) : QBox K) = ⟨a * (360 / 65535) - 180, b * (360 / 65535) - 180,
      c * (180 / 65535) - 90, d * (180 / 65535) - 90⟩ := by
    simp only [dequantBox, hq, hU, Int.cast_natCast, mul_div_assoc]
  rw [hdq]
  refine ⟨⟨a, b, c, d, ha1, hb1, hc1, hd1, hq⟩, ⟨a, b, c, d, ha1, hb1, hc1, hd1, rfl, rfl, rfl, rfl⟩, ?_, ?_⟩
  · intro hcov
    refine ⟨?_, ⟨p1, m1, by rw [e1]; exact ha3⟩, ⟨p2, m2, by rw [e2]; exact hb3⟩, ⟨p3, m3, by rw [e3]; exact hc3⟩,
      ⟨p4, m4, by rw [e4]; exact hd3⟩⟩
    intro p hp
    obtain ⟨c1, c2, c3, c4⟩ := hcov p hp
    exact ⟨by simp only; linarith, by simp only; linarith, by simp only; linarith, by simp only; linarith⟩
  · rintro ⟨h1, h2⟩
    exact ⟨by simp only; linarith, by simp only; linarith⟩

/-! ### Points -/

theorem packU_bytes {n : Nat} {v : Int} {bs : List Byte} (h : packU n v = .ok bs) :
    bs.length = n ∧ (beVal bs : Int) = v := by
  obtain ⟨h1, h2⟩ := unpackU_packU h
  refine ⟨h2, ?_⟩
  simp only [unpackU, h2, if_true] at h1
  injection h1 with h1
  unfold packU at h
  split at h
  · rename_i hv
    rw [h1]
    exact Int.toNat_of_nonneg hv.1
  · simp at h

theorem half_step {v x0 x1 : K} {u : Int} {U : K} (hU : 0 < U) (hx : x0 ≤ x1) (hn : x1 - x0 ≠ 0)
    (hu : |(u : K) - (v - x0) * U / (x1 - x0)| ≤ 1 / 2) :
    |x0 + (u : K) * (x1 - x0) / U - v| ≤ (x1 - x0) / (2 * U) := by
  have hpos : 0 < x1 - x0 := lt_of_le_of_ne (by linarith) (Ne.symm hn)
  have e : x0 + (u : K) * (x1 - x0) / U - v = ((u : K) - (v - x0) * U / (x1 - x0)) * ((x1 - x0) / U) := by
    field_simp
    ring
  rw [e, abs_mul, abs_of_pos (div_pos hpos hU)]
  calc _ ≤ 1 / 2 * ((x1 - x0) / U) := mul_le_mul_of_nonneg_right hu (div_pos hpos hU).le
    _ = _ := by field_simp

/-- Near, and what `storedAs` says. -/
def NearAs (size : Nat) (umax : Int) (q : QBox K) (p' p : K × K) : Prop := Near size q p' p ∧ p' = storedAs umax q p

theorem packPoint_read {size : Nat} {umax : Int} {q : QBox K} {p : K × K} {bs : List Byte}
    (hu : umax = 256 ^ size - 1) (hs : 0 < size) (hx : q.x0 ≤ q.x1) (hy : q.y0 ≤ q.y1)
    (h : packPoint size umax q p = .ok bs) :
    ∃ a b, bs.length = size * 2 ∧ unpackPair size bs = .ok (a, b) ∧
      NearAs size umax q (q.x0 + (a : K) * (q.x1 - q.x0) / (umax : K), q.y0 + (b : K) * (q.y1 - q.y0) / (umax : K)) p := by
  simp only [packPoint] at h
  split at h
  · simp at h
  · rename_i hz
    push Not at hz
    simp only [Py.bind_ok] at h
    obtain ⟨a, ha, b, hb, h⟩ := h
    injection h with h
    obtain ⟨a1, a2⟩ := packU_bytes ha
    obtain ⟨b1, b2⟩ := packU_bytes hb
    have hU : (umax : K) = 256 ^ size - 1 := by rw [hu]; push_cast; ring
    have hpos : (0 : K) < 256 ^ size - 1 := by
      have : (1 : K) < 256 ^ size := one_lt_pow₀ (by norm_num) (by omega)
      linarith
    have hl : bs.length = size * 2 := by rw [← h, List.length_append, a1, b1]; omega
    refine ⟨beVal a, beVal b, hl, ?_, ⟨?_, ?_⟩, ?_⟩
    · rw [unpackPair, if_pos hl, ← h, List.take_append_of_le_length (by omega), List.drop_append_of_le_length (by omega)]
      rw [List.take_of_length_le (by omega), List.drop_of_length_le (by omega), List.nil_append]
    · have := half_step (v := p.1) (u := (beVal a : Int)) hpos hx hz.1 (by rw [a2, ← hU]; exact pyRound_abs _)
      rw [hU]
      simpa using this
    · have := half_step (v := p.2) (u := (beVal b : Int)) hpos hy hz.2 (by rw [b2, ← hU]; exact pyRound_abs _)
      rw [hU]
      simpa using this
    · simp only [storedAs, ← a2, ← b2, Int.cast_natCast]

/-- `bytes` is the encoding of the points. -/
def Encodes (size : Nat) (umax : Int) (q : QBox K) (ps : List (K × K)) (bytes : List Byte) : Prop :=
  ∃ bss, List.Forall₂ (fun p bs => packPoint size umax q p = .ok bs) ps bss ∧ bytes = bss.flatten

theorem packParts_encodes {size : Nat} {umax : Int} {q : QBox K} {parts : List (List (K × K))} {bytes : List Byte}
    (h : packParts size umax q parts = .ok bytes) : Encodes size umax q parts.flatten bytes := by
  simp only [packParts, Py.bind_ok] at h
  obtain ⟨bss, h1, h⟩ := h
  injection h with h
  exact ⟨bss, Py.mapM_ok.mp h1, h.symm⟩

theorem encodes_append {size : Nat} {umax : Int} {q : QBox K} {ps qs : List (K × K)} {bytes : List Byte}
    (h : Encodes size umax q (ps ++ qs) bytes) :
    ∃ b1 b2, bytes = b1 ++ b2 ∧ Encodes size umax q ps b1 ∧ Encodes size umax q qs b2 := by
  obtain ⟨bss, h1, h2⟩ := h
  refine ⟨(bss.take ps.length).flatten, (bss.drop ps.length).flatten, ?_, ⟨_, ?_, rfl⟩, ⟨_, ?_, rfl⟩⟩
  · rw [h2, ← List.flatten_append, List.take_append_drop]
  · simpa using List.forall₂_take ps.length h1
  · simpa using List.forall₂_drop ps.length h1

theorem encodes_length {size : Nat} {umax : Int} {q : QBox K} {ps : List (K × K)} {bytes : List Byte}
    (h : Encodes size umax q ps bytes) : bytes.length = ps.length * size * 2 := by
  obtain ⟨bss, h1, rfl⟩ := h
  induction h1 with
  | nil => simp
  | cons hp _ ih =>
    simp only [packPoint] at hp
    split at hp
    · simp at hp
    · simp only [Py.bind_ok] at hp
      obtain ⟨a, ha, b, hb, h⟩ := hp
      injection h with h
      rw [List.flatten_cons, List.length_append, ih, ← h, List.length_append, (packU_bytes ha).1, (packU_bytes hb).1,
        List.length_cons]
      ring

theorem readPoints_encodes {r : PReader K} {q : QBox K} {ps : List (K × K)} {bytes : List Byte}
    (hu : r.umax = 256 ^ r.size - 1) (hs : 0 < r.size) (hx : q.x0 ≤ q.x1) (hy : q.y0 ≤ q.y1)
    (h : Encodes r.size r.umax q ps bytes) (rest : List Byte) :
    ∃ ps', readPoints r q ps.length (bytes ++ rest) = .ok (ps', rest) ∧ List.Forall₂ (NearAs r.size r.umax q) ps' ps := by
  obtain ⟨bss, h1, rfl⟩ := h
  induction h1 with
  | nil => exact ⟨[], rfl, .nil⟩
  | @cons p bs ps bss hp _ ih =>
    obtain ⟨ps', e1, e2⟩ := ih
    obtain ⟨a, b, hl, ha, hn⟩ := packPoint_read hu hs hx hy hp
    refine ⟨_ :: ps', ?_, .cons hn e2⟩
    simp only [List.length_cons, readPoints, List.flatten_cons, List.append_assoc, readN]
    rw [List.take_append_of_le_length (by omega), List.take_of_length_le (by omega),
      List.drop_append_of_le_length (by omega), List.drop_of_length_le (by omega), List.nil_append, ha]
    simp only [bind, Except.bind] at e1 ⊢
    rw [e1]
    rfl

theorem readParts_encodes {r : PReader K} {q : QBox K} {parts : List (List (K × K))} {bytes : List Byte}
    (hu : r.umax = 256 ^ r.size - 1) (hs : 0 < r.size) (hx : q.x0 ≤ q.x1) (hy : q.y0 ≤ q.y1)
    (h : Encodes r.size r.umax q parts.flatten bytes) (rest : List Byte) :
    ∃ parts', readParts r q (parts.map List.length) (bytes ++ rest) = .ok (parts', rest) ∧
      List.Forall₂ (List.Forall₂ (NearAs r.size r.umax q)) parts' parts := by
  induction parts generalizing bytes with
  | nil =>
    obtain ⟨bss, h1, rfl⟩ := h
    cases h1
    exact ⟨[], rfl, .nil⟩
  | cons p parts ih =>
    rw [List.flatten_cons] at h
    obtain ⟨b1, b2, rfl, h1, h2⟩ := encodes_append h
    obtain ⟨p', e1, e2⟩ := readPoints_encodes hu hs hx hy h1 (b2 ++ rest)
    obtain ⟨ps', f1, f2⟩ := ih h2
    refine ⟨p' :: ps', ?_, .cons e2 f2⟩
    simp only [List.map_cons, readParts, List.append_assoc]
    rw [e1]
    simp only [bind, Except.bind]
    rw [f1]
    rfl

/-! ### Histories -/

/-- What one successful `write(name, polygons)` contributed. -/
structure Info (K : Type) where
  name : List Nat
  parts : List (List (K × K))
  bb : BBox K
  bytes : List Byte

/-- The index entry of a contribution. -/
def Info.entry (i : Info K) : PEntry := ⟨i.name, i.parts.map List.length, quantBox i.bb⟩

/-- The contribution belongs to the call. -/
def Info.Of (size : Nat) (umax : Int) (c : List Nat × List (List (K × K))) (i : Info K) : Prop :=
  i.name = c.1 ∧ List.Forall₂ StoredRing c.2 i.parts ∧ partsBox none i.parts = .ok (some i.bb) ∧
    Encodes size umax (dequantBox (quantBox i.bb) : QBox K) i.parts.flatten i.bytes

theorem writeAll_infos {w w' : PWriter} {ws : List (List Nat × List (List (K × K)))} (h : w.writeAll ws = .ok w') :
    ∃ infos : List (Info K), List.Forall₂ (Info.Of w.size w.umax) ws infos ∧ w'.size = w.size ∧ w'.umax = w.umax ∧
      w'.entries = w.entries ++ infos.map Info.entry ∧ w'.data = w.data ++ (infos.map Info.bytes).flatten := by
  induction ws generalizing w with
  | nil =>
    injection h with h
    subst h
    exact ⟨[], .nil, rfl, rfl, by simp, by simp⟩
  | cons c ws ih =>
    obtain ⟨name, polygons⟩ := c
    simp only [PWriter.writeAll, Res.bind_ok] at h
    obtain ⟨w1, h1, h⟩ := h
    obtain ⟨parts, bb, bytes, hw⟩ := write_wrote h1
    obtain ⟨infos, g1, g2, g3, g4, g5⟩ := ih h
    have hr := hw.result
    subst hr
    refine ⟨⟨name, parts, bb, bytes⟩ :: infos, .cons ⟨rfl, hw.stored, hw.box, packParts_encodes hw.packed⟩ g1, g2, g3, ?_, ?_⟩
    · rw [g4]; simp [Info.entry]
    · rw [g5]; simp

theorem readLens_write (ls : List Nat) (rest : List Byte) :
    readLens ls.length (ls.flatMap writevlv ++ rest) = .ok (ls, rest) := by
  induction ls with
  | nil => rfl
  | cons l ls ih =>
    simp only [List.length_cons, readLens, List.flatMap_cons, List.append_assoc, readvlv_writevlv, bind, Except.bind]
    simp only [ih]
    rfl

theorem readH_packU {v : Int} {bs : List Byte} (h : packU 2 v = .ok bs) (rest : List Byte) :
    readH (bs ++ rest) = .ok (v.toNat, rest) ∧ (v.toNat : Int) = v := by
  obtain ⟨h1, h2⟩ := unpackU_append h rest
  refine ⟨?_, ?_⟩
  · simp only [readH, readN, h1, h2, (unpackU_packU h).1]
    rfl
  · unfold packU at h
    split at h
    · rename_i hv; exact Int.toNat_of_nonneg hv.1
    · simp at h

theorem readEntryTail_write {e : PEntry} {x0 x1 y0 y1 : List Byte} (h0 : packU 2 e.box.x0 = .ok x0)
    (h1 : packU 2 e.box.x1 = .ok x1) (h2 : packU 2 e.box.y0 = .ok y0) (h3 : packU 2 e.box.y1 = .ok y1)
    (rest : List Byte) :
    readEntryTail (writevlv e.partlen.length ++ (x0 ++ (x1 ++ (y0 ++ (y1 ++ e.partlen.flatMap writevlv)))) ++ rest) =
      .ok ((e.partlen, e.box), rest) := by
  simp only [readEntryTail, List.append_assoc, readvlv_writevlv, bind, Except.bind]
  obtain ⟨a0, b0⟩ := readH_packU h0 (x1 ++ (y0 ++ (y1 ++ (e.partlen.flatMap writevlv ++ rest))))
  obtain ⟨a1, b1⟩ := readH_packU h1 (y0 ++ (y1 ++ (e.partlen.flatMap writevlv ++ rest)))
  obtain ⟨a2, b2⟩ := readH_packU h2 (y1 ++ (e.partlen.flatMap writevlv ++ rest))
  obtain ⟨a3, b3⟩ := readH_packU h3 (e.partlen.flatMap writevlv ++ rest)
  simp only [a0, a1, a2, a3, readLens_write]
  rw [b0, b1, b2, b3]
  rfl

theorem readEntry_write {e : PEntry} {bs : List Byte} (h : writeEntry e = .ok bs) (hn : ∀ c ∈ e.name, c ≠ 0)
    (rest : List Byte) : readEntry (bs ++ rest) = .ok (e, rest) := by
  simp only [writeEntry, Py.bind_ok] at h
  obtain ⟨n, hn', x0, h0, x1, h1, y0, h2, y1, h3, h⟩ := h
  injection h with h
  subst h
  rw [List.append_assoc]
  simp only [readEntry, readascii_writeascii hn' hn, readEntryTail_write h0 h1 h2 h3, Res.lift, bind, Res.bind]
  rfl

theorem readEntries_write {es : List PEntry} {bss : List (List Byte)} (h : es.mapM writeEntry = .ok bss)
    (hn : ∀ e ∈ es, ∀ c ∈ e.name, c ≠ 0) (rest : List Byte) :
    readEntries es.length (bss.flatten ++ rest) = .ok (es, rest) := by
  rw [Py.mapM_ok] at h
  induction h with
  | nil => rfl
  | cons he _ ih =>
    simp only [List.length_cons, readEntries, List.flatten_cons, List.append_assoc,
      readEntry_write he (hn _ (by simp)), bind, Res.bind, ih (fun e h' => hn e (by simp [h']))]
    rfl

theorem getfmt_ok {size : Nat} {umax : Int} (h : getfmt size = .ok umax) :
    size ∈ [1, 2, 4, 8] ∧ umax = 256 ^ size - 1 := by
  unfold getfmt at h
  split at h
  · injection h with h; exact ⟨by assumption, h.symm⟩
  · simp at h

theorem close_parts {w : PWriter} {file : List Byte} (h : w.close = .ok file) :
    ∃ (idx : List (List Byte)) (nrows : Nat), w.size < 256 ∧ w.entries.mapM writeEntry = .ok idx ∧
      file = [0x50, 0x46, 0] ++ ([w.size] ++ (writevlv nrows ++ (writevlv w.entries.length ++ (idx.flatten ++ w.data)))) := by
  simp only [PWriter.close, Py.bind_ok] at h
  obtain ⟨sz, h1, idx, h2, h⟩ := h
  injection h with h
  refine ⟨idx, (w.entries.map (fun e => e.partlen.sum)).sum, ?_, h2, ?_⟩
  · unfold packU at h1
    split at h1
    · rename_i hv; have := hv.2; norm_num at this; omega
    · simp at h1
  · have hsz : sz = [w.size] := by
      unfold packU at h1
      split at h1
      · rename_i hv
        injection h1 with h1
        rw [← h1]
        have := hv.2
        norm_num at this
        simp only [beBytes, Int.toNat_natCast, List.nil_append]
        rw [Nat.mod_eq_of_lt (by omega)]
      · simp at h1
    rw [← h, hsz]

theorem readFixed_write {size nrows n : Nat} (hs : size ∈ [1, 2, 4, 8]) (rest : List Byte) :
    readFixed ([0x50, 0x46, 0] ++ ([size] ++ (writevlv nrows ++ (writevlv n ++ rest)))) = .ok ((size, n), rest) := by
  simp only [readFixed, readN, List.cons_append, List.nil_append, List.take, List.drop, readOrd, beq_self_eq_true,
    pyAssert, if_true, bind, Except.bind, readvlv_writevlv, hs, decide_true]
  rfl

/-- The reader of a closed file. -/
theorem open_close {w : PWriter} {file : List Byte} (h : w.close = .ok file) (hs : getfmt w.size = .ok w.umax)
    (hn : ∀ e ∈ w.entries, ∀ c ∈ e.name, c ≠ 0) :
    ∃ r : PReader K, PReader.open file = .ok r ∧ r.size = w.size ∧ r.umax = w.umax ∧
      r.names = w.entries.map (·.name) ∧ r.bboxes = w.entries.map (fun e => dequantBox e.box) ∧
      r.partlens = w.entries.map (·.partlen) ∧ r.file = file ∧ file.drop r.datapos = w.data := by
  obtain ⟨idx, nrows, h1, h2, h3⟩ := close_parts h
  obtain ⟨s1, s2⟩ := getfmt_ok hs
  have e : PReader.open file = .ok (⟨file, file.length - w.data.length, w.size, w.umax, w.entries.map (·.name),
      w.entries.map (fun e => dequantBox e.box), w.entries.map (·.partlen)⟩ : PReader K) := by
    unfold PReader.open
    nth_rw 1 [h3]
    rw [readFixed_write s1]
    simp only [Res.lift, bind, Res.bind, readEntries_write h2 hn, hs]
    rfl
  refine ⟨_, e, rfl, rfl, rfl, rfl, rfl, rfl, ?_⟩
  have : ∃ pre, file = pre ++ w.data :=
    ⟨[0x50, 0x46, 0] ++ ([w.size] ++ (writevlv nrows ++ (writevlv w.entries.length ++ idx.flatten))), by rw [h3]; simp⟩
  obtain ⟨pre, hp⟩ := this
  simp only
  rw [hp, List.length_append, Nat.add_sub_cancel, List.drop_left]

theorem pyIndex_nat {α : Type} {l : List α} {i : Nat} (h : i < l.length) : pyIndex l (i : Int) = .ok l[i] := by
  have : ¬ ((i : Int) < 0) := by omega
  simp [pyIndex, this, h]

/-- Reading entity `i`. -/
theorem read_entity {r : PReader K} {infos : List (Info K)} (pos i : Nat) (hi : i < infos.length)
    (hu : r.umax = 256 ^ r.size - 1) (hs : 0 < r.size)
    (hb : r.bboxes = infos.map (fun x => dequantBox (quantBox x.bb)))
    (hp : r.partlens = infos.map (fun x => x.parts.map List.length))
    (hd : r.file.drop r.datapos = (infos.map Info.bytes).flatten)
    (hw : (infos[i]).bb.WF)
    (he : ∀ x ∈ infos, Encodes r.size r.umax (dequantBox (quantBox x.bb) : QBox K) x.parts.flatten x.bytes) :
    ∃ parts pos', r.read pos (i : Int) = .ok (parts, pos') ∧
      List.Forall₂ (List.Forall₂ (NearAs r.size r.umax (dequantBox (quantBox infos[i].bb)))) parts infos[i].parts := by
  set x := infos[i] with hx
  have hxm : x ∈ infos := List.getElem_mem hi
  have hU : (0 : K) < (umax2 : K) := by norm_num [umax2]
  have mono : ∀ a b : Int, a ≤ b → ∀ c : K, 0 < c → (a : K) * c / (umax2 : K) ≤ (b : K) * c / (umax2 : K) := by
    intro a b hab c hc
    exact div_le_div_of_nonneg_right (mul_le_mul_of_nonneg_right (by exact_mod_cast hab) hc.le) hU.le
  have w1 : (dequantBox (quantBox x.bb) : QBox K).x0 ≤ (dequantBox (quantBox x.bb) : QBox K).x1 := by
    have : (quantBox x.bb).x0 ≤ (quantBox x.bb).x1 := by
      refine le_trans (Int.floor_le_ceil _) (Int.ceil_le_ceil ?_)
      exact div_le_div_of_nonneg_right (mul_le_mul_of_nonneg_right (by linarith [hw.1]) hU.le) (by norm_num)
    have := mono _ _ this 360 (by norm_num)
    simp only [dequantBox]
    linarith
  have w2 : (dequantBox (quantBox x.bb) : QBox K).y0 ≤ (dequantBox (quantBox x.bb) : QBox K).y1 := by
    have : (quantBox x.bb).y0 ≤ (quantBox x.bb).y1 := by
      refine le_trans (Int.floor_le_ceil _) (Int.ceil_le_ceil ?_)
      exact div_le_div_of_nonneg_right (mul_le_mul_of_nonneg_right (by linarith [hw.2]) hU.le) (by norm_num)
    have := mono _ _ this 180 (by norm_num)
    simp only [dequantBox]
    linarith
  have split : infos = infos.take i ++ x :: infos.drop (i + 1) := by
    rw [hx, List.getElem_cons_drop, List.take_append_drop]
  have lens : ((infos.take i).map Info.bytes).flatten.length =
      (((infos.take i).map (fun x => x.parts.map List.length)).map (fun pl => pl.sum * r.size * 2)).sum := by
    have : ∀ l : List (Info K), (∀ y ∈ l, y ∈ infos) → (l.map Info.bytes).flatten.length =
        ((l.map (fun x => x.parts.map List.length)).map (fun pl => pl.sum * r.size * 2)).sum := by
      intro l
      induction l with
      | nil => simp
      | cons y l ih =>
        intro hl
        have := encodes_length (he y (hl y (by simp)))
        simp only [List.map_cons, List.flatten_cons, List.length_append, List.sum_cons, this,
          ih (fun z hz => hl z (by simp [hz])), List.length_flatten]
    exact this _ fun y hy => (List.take_sublist i infos).subset hy
  obtain ⟨parts, e1, e2⟩ := readParts_encodes hu hs w1 w2 (he x hxm)
    ((infos.drop (i + 1)).map Info.bytes).flatten
  have hoff : r.file.drop (r.datapos + ((pyTake r.partlens (i : Int)).map (fun pl => pl.sum * r.size * 2)).sum) =
      x.bytes ++ ((infos.drop (i + 1)).map Info.bytes).flatten := by
    rw [← List.drop_drop, hd, hp]
    have : pyTake (infos.map (fun x => x.parts.map List.length)) (i : Int) =
        (infos.take i).map (fun x => x.parts.map List.length) := by
      simp [pyTake, List.map_take]
    rw [this, ← lens]
    nth_rw 2 [split]
    rw [List.map_append, List.flatten_append, List.drop_left]
    simp
  refine ⟨parts, r.file.length - ((infos.drop (i + 1)).map Info.bytes).flatten.length, ?_, e2⟩
  simp only [PReader.read]
  rw [pyIndex_nat (l := r.bboxes) (i := i) (by rw [hb]; simpa using hi)]
  simp only [bind, Except.bind]
  rw [pyIndex_nat (l := r.partlens) (i := i) (by rw [hp]; simpa using hi)]
  simp only [hoff]
  have b1 : r.bboxes[i]'(by rw [hb]; simpa using hi) = dequantBox (quantBox x.bb) := by simp [hb, hx]
  have b2 : r.partlens[i]'(by rw [hp]; simpa using hi) = x.parts.map List.length := by simp [hp, hx]
  rw [b1, b2, e1]
  rfl

/-! ### Success -/

theorem packPoint_ok {size : Nat} {umax : Int} {q : QBox K} {p : K × K} (hu : umax = 256 ^ size - 1)
    (hx : q.x0 < q.x1) (hy : q.y0 < q.y1) (h : q.x0 ≤ p.1 ∧ p.1 ≤ q.x1 ∧ q.y0 ≤ p.2 ∧ p.2 ≤ q.y1) :
    ∃ bs, packPoint size umax q p = .ok bs := by
  have hU : (0 : K) ≤ (umax : K) := by
    rw [hu]; push_cast
    have : (1 : K) ≤ 256 ^ size := one_le_pow₀ (by norm_num)
    linarith
  have key : ∀ v a b : K, a < b → a ≤ v → v ≤ b → ∃ bs, packU size (pyRound ((v - a) * (umax : K) / (b - a))) = .ok bs := by
    intro v a b hab h1 h2
    have hp : 0 < b - a := by linarith
    refine ⟨_, packU_ok.mpr ⟨?_, ?_, rfl⟩⟩
    · apply le_pyRound_of_le
      push_cast
      exact div_nonneg (mul_nonneg (by linarith) hU) hp.le
    · have : pyRound ((v - a) * (umax : K) / (b - a)) ≤ umax := by
        apply pyRound_le_of_le
        rw [div_le_iff₀ hp, mul_comm]
        exact mul_le_mul_of_nonneg_left (by linarith) hU
      have e : ((256 ^ size : Nat) : Int) = 256 ^ size := by push_cast; rfl
      omega
  obtain ⟨a, ha⟩ := key p.1 q.x0 q.x1 hx h.1 h.2.1
  obtain ⟨b, hb⟩ := key p.2 q.y0 q.y1 hy h.2.2.1 h.2.2.2
  refine ⟨a ++ b, ?_⟩
  simp only [packPoint]
  rw [if_neg (by push Not; exact ⟨sub_ne_zero.mpr hx.ne', sub_ne_zero.mpr hy.ne'⟩), ha, hb]
  rfl

theorem mapM_exists {α β : Type} {f : α → Py β} {l : List α} (h : ∀ a ∈ l, ∃ b, f a = .ok b) :
    ∃ l', l.mapM f = .ok l' := by
  induction l with
  | nil => exact ⟨[], rfl⟩
  | cons a l ih =>
    obtain ⟨b, hb⟩ := h a (by simp)
    obtain ⟨l', hl⟩ := ih (fun a ha => h a (by simp [ha]))
    exact ⟨b :: l', Py.mapM_ok.mpr (.cons hb (Py.mapM_ok.mp hl))⟩

theorem mapM_exists_res {α β : Type} {f : α → Res β} {l : List α} (h : ∀ a ∈ l, ∃ b, f a = .ok b) :
    ∃ l', l.mapM f = .ok l' := by
  induction l with
  | nil => exact ⟨[], rfl⟩
  | cons a l ih =>
    obtain ⟨b, hb⟩ := h a (by simp)
    obtain ⟨l', hl⟩ := ih (fun a ha => h a (by simp [ha]))
    exact ⟨b :: l', Res.mapM_ok.mpr (.cons hb (Res.mapM_ok.mp hl))⟩

/-! ### Termination of `write` -/

theorem mapM_hang {α β : Type} {f : α → Res β} (hf : ∀ a, f a = .hang ∨ ∃ b, f a = .ok b) (l : List α) :
    (l.mapM f = .hang ∧ ∃ a ∈ l, f a = .hang) ∨ ((∃ l', l.mapM f = .ok l') ∧ ∀ a ∈ l, f a ≠ .hang) := by
  induction l with
  | nil => exact Or.inr ⟨⟨[], rfl⟩, by simp⟩
  | cons a l ih =>
    rcases hf a with h | ⟨b, h⟩
    · exact Or.inl ⟨by rw [List.mapM_cons, h]; rfl, a, by simp, h⟩
    · rcases ih with ⟨h1, x, hx, h2⟩ | ⟨⟨l', h1⟩, h2⟩
      · exact Or.inl ⟨by rw [List.mapM_cons, h, h1]; rfl, x, by simp [hx], h2⟩
      · refine Or.inr ⟨⟨b :: l', by rw [List.mapM_cons, h, h1]; rfl⟩, ?_⟩
        intro x hx
        rcases List.mem_cons.mp hx with rfl | hx
        · rw [h]; simp
        · exact h2 x hx

theorem wrapPoint_hang (p : K × K) : (wrapPoint p = .hang ∧ 90 < p.2) ∨ ((∃ q, wrapPoint p = .ok q) ∧ p.2 ≤ 90) := by
  by_cases h : p.2 ≤ 90
  · exact Or.inr ⟨wrapPoint_ok h, h⟩
  · push Not at h
    refine Or.inl ⟨?_, h⟩
    simp only [wrapPoint, wrapLat]
    rw [if_neg (by linarith), if_pos h]
    rfl

theorem write_hang_iff (w : PWriter) (name : List Nat) (polygons : List (List (K × K))) :
    w.write name polygons = .hang ↔ ∃ poly ∈ polygons, ∃ p ∈ poly, 90 < p.2 := by
  have hp : ∀ p : K × K, wrapPoint p = .hang ∨ ∃ q, wrapPoint p = .ok q := by
    intro p
    rcases wrapPoint_hang p with h | h
    exacts [Or.inl h.1, Or.inr h.1]
  have hpoly : ∀ poly : List (K × K), poly.mapM wrapPoint = .hang ∨ ∃ q, poly.mapM wrapPoint = .ok q := by
    intro poly
    rcases mapM_hang hp poly with h | h
    exacts [Or.inl h.1, Or.inr h.1]
  rcases mapM_hang hpoly polygons with ⟨h1, poly, hpm, h2⟩ | ⟨⟨wrapped, h1⟩, h2⟩
  · constructor
    · intro _
      rcases mapM_hang hp poly with ⟨_, p, hpp, h3⟩ | ⟨⟨_, h3⟩, _⟩
      · rcases wrapPoint_hang p with h4 | h4
        · exact ⟨poly, hpm, p, hpp, h4.2⟩
        · obtain ⟨⟨q, hq⟩, _⟩ := h4
          rw [hq] at h3; simp at h3
      · rw [h3] at h2; simp at h2
    · intro _
      simp only [PWriter.write, h1]
      rfl
  · constructor
    · intro h
      exfalso
      simp only [PWriter.write, h1] at h
      simp only [bind, Res.bind] at h
      cases ha : wrapped.mapM dropClosing with
      | error e => rw [ha] at h; simp [Res.lift] at h
      | ok parts =>
        rw [ha] at h
        simp only [Res.lift] at h
        cases hb : partsBox none parts with
        | error e => rw [hb] at h; simp at h
        | ok bb =>
          rw [hb] at h
          cases bb with
          | none => simp at h
          | some bb =>
            simp only at h
            cases hc : packParts w.size w.umax (dequantBox (quantBox bb) : QBox K) parts with
            | error e => rw [hc] at h; simp at h
            | ok bytes => rw [hc] at h; simp [pure] at h
    · rintro ⟨poly, hpm, p, hpp, h⟩
      exfalso
      rcases mapM_hang hp poly with h3 | ⟨_, h3⟩
      · exact h2 poly hpm h3.1
      · rcases wrapPoint_hang p with h4 | h4
        · exact h3 p hpp h4.1
        · linarith [h4.2]

/-- A `write` succeeds when the latitudes are at most 90 and every stored ring has positive extent. -/
theorem write_ok (w : PWriter) (hw : getfmt w.size = .ok w.umax) (name : List Nat)
    (polygons : List (List (K × K))) (hne : polygons ≠ []) (hlat : ∀ poly ∈ polygons, ∀ p ∈ poly, p.2 ≤ 90)
    (hpos : ∀ poly ∈ polygons, poly ≠ [] ∧ ∀ ring, StoredRing poly ring → PosExtent ring) :
    ∃ w', w.write name polygons = .ok w' := by
  obtain ⟨wrapped, h1⟩ : ∃ l', polygons.mapM (fun poly => poly.mapM wrapPoint) = .ok l' :=
    mapM_exists_res fun poly hp => mapM_exists_res fun p hpp => wrapPoint_ok (hlat poly hp p hpp)
  have f1 := Res.mapM_ok.mp h1
  have hwne : ∀ m ∈ wrapped, m ≠ [] := by
    intro m hm
    obtain ⟨i, hi, rfl⟩ := List.getElem_of_mem hm
    have hi' : i < polygons.length := by rw [f1.length_eq]; exact hi
    have := f1.get hi' hi
    have := (Res.mapM_ok.mp this).length_eq
    have h2 := (hpos polygons[i] (List.getElem_mem _)).1
    intro h0
    simp only [List.get_eq_getElem, h0, List.length_nil, List.length_eq_zero_iff] at this
    exact h2 this
  obtain ⟨parts, h2⟩ : ∃ l', wrapped.mapM dropClosing = .ok l' :=
    mapM_exists fun m hm => dropClosing_ok (hwne m hm)
  have f2 := Py.mapM_ok.mp h2
  have stored : List.Forall₂ StoredRing polygons parts := by
    refine (forall₂_comp f1 f2).imp ?_
    rintro poly ring ⟨m, hm, hr⟩
    rw [Res.mapM_ok] at hm
    exact ⟨m, hm.imp fun _ _ => wrapPoint_wraps, dropClosing_stored hr⟩
  have hext : ∀ r ∈ parts, PosExtent r := by
    intro r hr
    obtain ⟨i, hi, rfl⟩ := List.getElem_of_mem hr
    have hi' : i < polygons.length := by rw [stored.length_eq]; exact hi
    exact (hpos polygons[i] (List.getElem_mem _)).2 _ (stored.get hi' hi)
  have hpne : parts ≠ [] := by
    intro h0
    have := stored.length_eq
    rw [h0] at this
    exact hne (List.length_eq_zero_iff.mp this)
  obtain ⟨o, h3, h4⟩ := partsBox_ok none parts (by
    intro r hr h0
    obtain ⟨⟨p, hp, _⟩, _⟩ := hext r hr
    rw [h0] at hp; simp at hp)
  cases o with
  | none => exact absurd rfl (h4 (Or.inr hpne))
  | some bb =>
    obtain ⟨t1, t2, t3⟩ := partsBox_none h3
    obtain ⟨t4, t5⟩ := t3 hext
    obtain ⟨_, _, q3, q4⟩ := quantBox_spec t1 (stored_range stored)
    obtain ⟨q5, q6⟩ := q4 t4
    obtain ⟨bss, h5⟩ : ∃ l', parts.flatten.mapM (packPoint w.size w.umax (dequantBox (quantBox bb) : QBox K)) = .ok l' :=
      mapM_exists fun p hp => packPoint_ok (getfmt_ok hw).2 q5 q6 ((q3 t5).1 p hp)
    refine ⟨{ w with entries := w.entries ++ [⟨name, parts.map List.length, quantBox bb⟩],
                     data := w.data ++ bss.flatten }, ?_⟩
    · simp only [PWriter.write, h1, bind, Res.bind, h2, Res.lift, h3, packParts, h5, Except.bind]
      rfl

/-! ### Truncation -/

/-- `f` reads exactly `bs` and raises on every proper prefix of it. -/
def Exact {α : Type} (f : List Byte → Py (α × List Byte)) (bs : List Byte) (v : α) : Prop :=
  (∀ rest, f (bs ++ rest) = .ok (v, rest)) ∧ ∀ pre, pre <+: bs → pre ≠ bs → ∃ e, f pre = .error e

theorem prefix_append_cases {pre b1 b2 : List Byte} (h : pre <+: b1 ++ b2) :
    (pre <+: b1 ∧ pre ≠ b1) ∨ ∃ p2, p2 <+: b2 ∧ pre = b1 ++ p2 := by
  rcases List.prefix_or_prefix_of_prefix h (List.prefix_append b1 b2) with h1 | h1
  · by_cases hne : pre = b1
    · exact Or.inr ⟨[], List.nil_prefix, by simp [hne]⟩
    · exact Or.inl ⟨h1, hne⟩
  · obtain ⟨t, rfl⟩ := h1
    exact Or.inr ⟨t, (List.prefix_append_right_inj b1).mp h, rfl⟩

theorem Exact.step {α β : Type} {f : List Byte → Py (α × List Byte)} {g : α × List Byte → Py β}
    {b1 b2 pre : List Byte} {v : α} (h1 : Exact f b1 v) (hp : pre <+: b1 ++ b2) (hne : pre ≠ b1 ++ b2)
    (k : ∀ p2, p2 <+: b2 → p2 ≠ b2 → ∃ e, g (v, p2) = .error e) : ∃ e, (f pre >>= g) = .error e := by
  rcases prefix_append_cases hp with ⟨h, h'⟩ | ⟨p2, h, rfl⟩
  · obtain ⟨e, he⟩ := h1.2 pre h h'
    exact ⟨e, by rw [he]; rfl⟩
  · rw [h1.1]
    exact k p2 h (by rintro rfl; exact hne rfl)

theorem Exact.last {α β : Type} {f : List Byte → Py (α × List Byte)} {g : α × List Byte → Py β}
    {b1 pre : List Byte} {v : α} (h1 : Exact f b1 v) (hp : pre <+: b1) (hne : pre ≠ b1) :
    ∃ e, (f pre >>= g) = .error e := by
  obtain ⟨e, he⟩ := h1.2 pre hp hne
  exact ⟨e, by rw [he]; rfl⟩

theorem exact_vlv (v : Nat) : Exact readvlv (writevlv v) v := by
  refine ⟨fun rest => readvlv_writevlv v rest, fun pre hp hne => ?_⟩
  obtain ⟨cont, last, h1, h2, h3⟩ := writevlv_shape v
  rw [h1] at hp hne
  have : pre <+: cont := by
    rcases prefix_append_cases hp with ⟨h, _⟩ | ⟨p2, h, rfl⟩
    · exact h
    · cases p2 with
      | nil => simp
      | cons a p2 =>
        obtain ⟨rfl, h'⟩ := List.cons_prefix_cons.mp h
        rw [List.prefix_nil.mp h'] at hne
        exact absurd rfl hne
  exact ⟨_, readvlvLoop_pre pre (fun b hb => h2 b (this.subset hb)) 0⟩

theorem exact_H {v : Int} {bs : List Byte} (h : packU 2 v = .ok bs) : Exact readH bs v.toNat := by
  refine ⟨fun rest => (readH_packU h rest).1, fun pre hp hne => ?_⟩
  have hl := (unpackU_packU h).2
  have : pre.length < 2 := by
    rcases Nat.lt_or_ge pre.length bs.length with h' | h'
    · omega
    · exact absurd (hp.eq_of_length_le h') hne
  refine ⟨.structError, ?_⟩
  have hl2 : ¬ (List.take 2 pre).length = 2 := by simp; omega
  have e : unpackU 2 (List.take 2 pre) = .error .structError := by rw [unpackU, if_neg hl2]
  simp only [readH, readN, e]
  rfl

theorem exact_lens (ls : List Nat) : Exact (readLens ls.length) (ls.flatMap writevlv) ls := by
  refine ⟨fun rest => readLens_write ls rest, ?_⟩
  induction ls with
  | nil => exact fun pre hp hne => absurd (List.prefix_nil.mp hp) hne
  | cons l ls ih =>
    intro pre hp hne
    rw [List.flatMap_cons] at hp hne
    exact (exact_vlv l).step hp hne fun p h h' => by
      obtain ⟨e, he⟩ := ih p h h'
      exact ⟨e, by simp only [he]; rfl⟩

theorem exact_tail {e : PEntry} {x0 x1 y0 y1 : List Byte} (h0 : packU 2 e.box.x0 = .ok x0)
    (h1 : packU 2 e.box.x1 = .ok x1) (h2 : packU 2 e.box.y0 = .ok y0) (h3 : packU 2 e.box.y1 = .ok y1) :
    Exact readEntryTail (writevlv e.partlen.length ++ (x0 ++ (x1 ++ (y0 ++ (y1 ++ e.partlen.flatMap writevlv)))))
      (e.partlen, e.box) := by
  refine ⟨fun rest => readEntryTail_write h0 h1 h2 h3 rest, fun pre hp hne => ?_⟩
  refine (exact_vlv _).step hp hne fun p hp hne => ?_
  refine (exact_H h0).step hp hne fun p hp hne => ?_
  refine (exact_H h1).step hp hne fun p hp hne => ?_
  refine (exact_H h2).step hp hne fun p hp hne => ?_
  refine (exact_H h3).step hp hne fun p hp hne => ?_
  exact (exact_lens e.partlen).last hp hne

theorem readEntry_prefix {e : PEntry} {bs pre : List Byte} (h : writeEntry e = .ok bs) (hn : ∀ c ∈ e.name, c ≠ 0)
    (hp : pre <+: bs) (hne : pre ≠ bs) :
    (pre.length ≤ e.name.length ∧ readEntry pre = .hang) ∨ (e.name.length < pre.length ∧ ∃ x, readEntry pre = .raise x) := by
  simp only [writeEntry, Py.bind_ok] at h
  obtain ⟨n, hn', x0, h0, x1, h1, y0, h2, y1, h3, h⟩ := h
  injection h with h
  rw [← h] at hp hne
  have en : n = e.name ++ [0] := by
    unfold writeascii at hn'
    split at hn'
    · injection hn' with hn'; exact hn'.symm
    · simp at hn'
  rcases prefix_append_cases hp with ⟨hq, hq'⟩ | ⟨p2, hq, rfl⟩
  · left
    rw [en] at hq hq'
    have hpre : pre <+: e.name := by
      rcases prefix_append_cases hq with ⟨hh, _⟩ | ⟨p3, hh, rfl⟩
      · exact hh
      · cases p3 with
        | nil => simp
        | cons a p3 =>
          obtain ⟨rfl, hh'⟩ := List.cons_prefix_cons.mp hh
          rw [List.prefix_nil.mp hh'] at hq'
          exact absurd rfl hq'
    refine ⟨hpre.length_le, ?_⟩
    simp only [readEntry, (readascii_hang_iff pre).mpr (fun c hc => hn c (hpre.subset hc))]
    rfl
  · right
    refine ⟨by rw [en]; simp, ?_⟩
    obtain ⟨x, hx⟩ := (exact_tail h0 h1 h2 h3).2 p2 hq (by rintro rfl; exact hne rfl)
    exact ⟨x, by simp only [readEntry, readascii_writeascii hn' hn, bind, Res.bind, hx, Res.lift]⟩

/-- Position `n` of the index is inside the name of an entry, before its terminating NUL. -/
def CutInName : List PEntry → List (List Byte) → Nat → Prop
  | e :: es, bs :: bss, n => n ≤ e.name.length ∨ (bs.length ≤ n ∧ CutInName es bss (n - bs.length))
  | _, _, _ => False

theorem readEntries_prefix {es : List PEntry} {bss : List (List Byte)} (h : es.mapM writeEntry = .ok bss)
    (hn : ∀ e ∈ es, ∀ c ∈ e.name, c ≠ 0) {pre : List Byte} (hp : pre <+: bss.flatten) (hne : pre ≠ bss.flatten) :
    (CutInName es bss pre.length ∧ readEntries es.length pre = .hang) ∨
      (¬ CutInName es bss pre.length ∧ ∃ x, readEntries es.length pre = .raise x) := by
  rw [Py.mapM_ok] at h
  induction h generalizing pre with
  | nil => exact absurd (List.prefix_nil.mp hp) hne
  | @cons e bs es bss he _ ih =>
    rw [List.flatten_cons] at hp hne
    simp only [List.length_cons, readEntries, CutInName]
    have hnl : e.name.length < bs.length := by
      simp only [writeEntry, Py.bind_ok] at he
      obtain ⟨n, hn', x0, h0, x1, h1, y0, h2, y1, h3, h⟩ := he
      injection h with h
      rw [← h]
      unfold writeascii at hn'
      split at hn'
      · injection hn' with hn'; rw [← hn']; simp
      · simp at hn'
    rcases prefix_append_cases hp with ⟨hq, hq'⟩ | ⟨p2, hq, rfl⟩
    · have hlt : pre.length < bs.length := by
        rcases Nat.lt_or_ge pre.length bs.length with h' | h'
        · exact h'
        · exact absurd (hq.eq_of_length_le h') hq'
      rcases readEntry_prefix he (hn e (by simp)) hq hq' with ⟨h1, h2⟩ | ⟨h1, x, h2⟩
      · exact Or.inl ⟨Or.inl h1, by rw [h2]; rfl⟩
      · exact Or.inr ⟨by omega, x, by rw [h2]; rfl⟩
    · rw [readEntry_write he (hn e (by simp))]
      have hl : (bs ++ p2).length - bs.length = p2.length := by simp
      rw [hl]
      have h1 : ¬ (bs ++ p2).length ≤ e.name.length := by simp; omega
      have h2 : bs.length ≤ (bs ++ p2).length := by simp
      rcases ih (fun e he => hn e (by simp [he])) hq (by rintro rfl; exact hne rfl) with ⟨i1, i2⟩ | ⟨i1, x, i2⟩
      · exact Or.inl ⟨Or.inr ⟨h2, i1⟩, by simp only [bind, Res.bind, i2]⟩
      · exact Or.inr ⟨by tauto, x, by simp only [bind, Res.bind, i2]⟩

theorem exact_fixed {size nrows n : Nat} (hs : size ∈ [1, 2, 4, 8]) :
    Exact readFixed ([0x50, 0x46, 0] ++ ([size] ++ (writevlv nrows ++ writevlv n))) (size, n) := by
  refine ⟨fun rest => ?_, fun pre hp hne => ?_⟩
  · have := readFixed_write (nrows := nrows) (n := n) hs rest
    simpa using this
  · match pre, hp, hne with
    | [], _, _ => exact ⟨_, rfl⟩
    | [a], _, _ => exact ⟨.assertionError, by simp [readFixed, readN, pyAssert, bind, Except.bind]⟩
    | [a, b], hp, _ =>
      simp only [List.cons_append, List.nil_append, List.cons_prefix_cons] at hp
      obtain ⟨rfl, rfl, -⟩ := hp
      exact ⟨.assertionError, by simp [readFixed, readN, pyAssert, bind, Except.bind]⟩
    | [a, b, c], hp, _ =>
      simp only [List.cons_append, List.nil_append, List.cons_prefix_cons] at hp
      obtain ⟨rfl, rfl, rfl, -⟩ := hp
      exact ⟨.typeError, by simp [readFixed, readN, pyAssert, bind, Except.bind, readOrd]⟩
    | a :: b :: c :: d :: t, hp, hne =>
      simp only [List.cons_append, List.nil_append, List.cons_prefix_cons] at hp
      obtain ⟨rfl, rfl, rfl, rfl, hp2⟩ := hp
      have hne' : t ≠ writevlv nrows ++ writevlv n := by rintro rfl; exact hne rfl
      obtain ⟨e, he⟩ : ∃ e, (readvlv t >>= fun x => do
          let y ← readvlv x.2
          pure (((d, y.1), y.2) : (Nat × Nat) × List Byte)) = .error e :=
        (exact_vlv nrows).step hp2 hne' fun p hp hne => (exact_vlv n).last hp hne
      refine ⟨e, ?_⟩
      rw [← he]
      simp only [readFixed, readN, List.take, List.drop, readOrd, beq_self_eq_true, pyAssert, if_true, bind, Except.bind,
        hs, decide_true]

end
end Coral
