import Verif.Spec.BBox
import Mathlib.Tactic.Order

set_option linter.unusedSectionVars false

namespace Coral.BBox

section
variable {K : Type} [LinearOrder K]

theorem hasPoint_iff (b : BBox K) (p : K × K) : b.hasPoint p = true ↔ b.Inside p := by
  simp [hasPoint, Inside, and_assoc]

theorem absorb_spec (b : BBox K) (h : b.WF) (p : K × K) :
    (b.absorb p) = ⟨min b.x0 p.1, min b.y0 p.2, max b.x1 p.1, max b.y1 p.2⟩ := by
  obtain ⟨h1, h2⟩ := h
  rcases b with ⟨a, b, c, d⟩
  rcases p with ⟨x, y⟩
  simp only at h1 h2
  unfold absorb
  simp only
  split_ifs <;> simp_all <;> (try refine ⟨?_, ?_⟩) <;> (try refine ⟨?_, ?_⟩) <;> (try constructor) <;> order

theorem absorb_wf (b : BBox K) (h : b.WF) (p : K × K) : (b.absorb p).WF := by
  rw [absorb_spec b h]
  exact ⟨le_trans (min_le_left _ _) (le_trans h.1 (le_max_left _ _)),
    le_trans (min_le_left _ _) (le_trans h.2 (le_max_left _ _))⟩

theorem foldl_absorb (ps : List (K × K)) (b : BBox K) (h : b.WF) :
    (ps.foldl absorb b).WF ∧
    (∀ q, b.Covers q → (ps.foldl absorb b).Covers q) ∧
    (∀ q ∈ ps, (ps.foldl absorb b).Covers q) ∧
    ((ps.foldl absorb b).x0 = b.x0 ∨ ∃ q ∈ ps, q.1 = (ps.foldl absorb b).x0) ∧
    ((ps.foldl absorb b).x1 = b.x1 ∨ ∃ q ∈ ps, q.1 = (ps.foldl absorb b).x1) ∧
    ((ps.foldl absorb b).y0 = b.y0 ∨ ∃ q ∈ ps, q.2 = (ps.foldl absorb b).y0) ∧
    ((ps.foldl absorb b).y1 = b.y1 ∨ ∃ q ∈ ps, q.2 = (ps.foldl absorb b).y1) := by
  induction ps generalizing b with
  | nil => simp [h]
  | cons p ps ih =>
    simp only [List.foldl_cons]
    obtain ⟨i1, i2, i3, i4, i5, i6, i7⟩ := ih (b.absorb p) (absorb_wf b h p)
    have e := absorb_spec b h p
    refine ⟨i1, ?_, ?_, ?_, ?_, ?_, ?_⟩
    · intro q ⟨h1, h2, h3, h4⟩
      apply i2
      rw [e]
      exact ⟨le_trans (min_le_left _ _) h1, le_trans h2 (le_max_left _ _),
        le_trans (min_le_left _ _) h3, le_trans h4 (le_max_left _ _)⟩
    · intro q hq
      rcases List.mem_cons.mp hq with rfl | hq
      · apply i2
        rw [e]
        exact ⟨min_le_right _ _, le_max_right _ _, min_le_right _ _, le_max_right _ _⟩
      · exact i3 q hq
    · rcases i4 with i | ⟨q, hq, i⟩
      · rw [i, e]
        rcases min_choice b.x0 p.1 with hm | hm <;> simp [hm]
      · exact Or.inr ⟨q, by simp [hq], i⟩
    · rcases i5 with i | ⟨q, hq, i⟩
      · rw [i, e]
        rcases max_choice b.x1 p.1 with hm | hm <;> simp [hm]
      · exact Or.inr ⟨q, by simp [hq], i⟩
    · rcases i6 with i | ⟨q, hq, i⟩
      · rw [i, e]
        rcases min_choice b.y0 p.2 with hm | hm <;> simp [hm]
      · exact Or.inr ⟨q, by simp [hq], i⟩
    · rcases i7 with i | ⟨q, hq, i⟩
      · rw [i, e]
        rcases max_choice b.y1 p.2 with hm | hm <;> simp [hm]
      · exact Or.inr ⟨q, by simp [hq], i⟩

/-- Everything about `BBox(points)` at once. -/
theorem ofPoints_spec (p : K × K) (ps : List (K × K)) :
    ∃ b, ofPoints (p :: ps) = .ok b ∧ b.WF ∧ (∀ q ∈ p :: ps, b.Covers q) ∧ b.Tight (p :: ps) := by
  refine ⟨_, rfl, ?_⟩
  obtain ⟨i1, i2, i3, i4, i5, i6, i7⟩ :=
    foldl_absorb ps (⟨p.1, p.2, p.1, p.2⟩ : BBox K) ⟨le_refl _, le_refl _⟩
  refine ⟨i1, ?_, ?_, ?_, ?_, ?_⟩
  · intro q hq
    rcases List.mem_cons.mp hq with rfl | hq
    · exact i2 _ ⟨le_refl _, le_refl _, le_refl _, le_refl _⟩
    · exact i3 q hq
  · rcases i4 with i | ⟨q, hq, i⟩
    · exact ⟨p, by simp, i.symm⟩
    · exact ⟨q, by simp [hq], i⟩
  · rcases i5 with i | ⟨q, hq, i⟩
    · exact ⟨p, by simp, i.symm⟩
    · exact ⟨q, by simp [hq], i⟩
  · rcases i6 with i | ⟨q, hq, i⟩
    · exact ⟨p, by simp, i.symm⟩
    · exact ⟨q, by simp [hq], i⟩
  · rcases i7 with i | ⟨q, hq, i⟩
    · exact ⟨p, by simp, i.symm⟩
    · exact ⟨q, by simp [hq], i⟩

theorem tight_least (b : BBox K) (ps : List (K × K)) (hc : ∀ q ∈ ps, b.Covers q) (ht : b.Tight ps) :
    b.IsLeast ps := by
  refine ⟨hc, ?_⟩
  rintro c h q ⟨h1, h2, h3, h4⟩
  obtain ⟨⟨p1, m1, e1⟩, ⟨p2, m2, e2⟩, ⟨p3, m3, e3⟩, ⟨p4, m4, e4⟩⟩ := ht
  obtain ⟨a1, -, -, -⟩ := h p1 m1
  obtain ⟨-, a2, -, -⟩ := h p2 m2
  obtain ⟨-, -, a3, -⟩ := h p3 m3
  obtain ⟨-, -, -, a4⟩ := h p4 m4
  exact ⟨by order, by order, by order, by order⟩

end

section
variable {K : Type} [Field K] [LinearOrder K] [IsStrictOrderedRing K]

theorem truthy_iff (b : BBox K) : b.truthy = true ↔ b.x0 ≠ b.x1 ∧ b.y0 ≠ b.y1 := by
  simp only [truthy, area, decide_eq_true_eq, ne_eq, mul_eq_zero, not_or, sub_eq_zero]
  constructor <;> rintro ⟨h1, h2⟩ <;> exact ⟨fun h => h1 h.symm, fun h => h2 h.symm⟩

theorem Proper.truthy {b : BBox K} (h : b.Proper) : b.truthy = true :=
  (truthy_iff b).mpr ⟨ne_of_lt h.1, ne_of_lt h.2⟩

theorem wf_truthy_proper {b : BBox K} (h : b.WF) (ht : b.truthy = true) : b.Proper := by
  obtain ⟨h1, h2⟩ := (truthy_iff b).mp ht
  exact ⟨lt_of_le_of_ne h.1 h1, lt_of_le_of_ne h.2 h2⟩

theorem union_proper {a b : BBox K} (ha : a.Proper) (hb : b.Proper) :
    a.union b = ⟨min a.x0 b.x0, min a.y0 b.y0, max a.x1 b.x1, max a.y1 b.y1⟩ := by
  simp [union, ha.truthy, hb.truthy, ofCorners]

theorem union_false_left {a b : BBox K} (ha : a.truthy = false) : a.union b = b := by simp [union, ha]
theorem union_false_right {a b : BBox K} (ha : a.truthy = true) (hb : b.truthy = false) : a.union b = a := by
  simp [union, ha, hb]

theorem union_isProper {a b : BBox K} (ha : a.Proper) (hb : b.Proper) : (a.union b).Proper := by
  rw [union_proper ha hb]
  exact ⟨lt_of_le_of_lt (min_le_left _ _) (lt_of_lt_of_le ha.1 (le_max_left _ _)),
    lt_of_le_of_lt (min_le_left _ _) (lt_of_lt_of_le ha.2 (le_max_left _ _))⟩

theorem union_wf {a b : BBox K} (ha : a.WF) (hb : b.WF) : (a.union b).WF := by
  by_cases h1 : a.truthy = true
  · by_cases h2 : b.truthy = true
    · have := union_isProper (wf_truthy_proper ha h1) (wf_truthy_proper hb h2)
      exact ⟨this.1.le, this.2.le⟩
    · rw [union_false_right h1 (by simpa using h2)]; exact ha
  · rw [union_false_left (by simpa using h1)]; exact hb

theorem union_assoc {a b c : BBox K} (ha : a.WF) (hb : b.WF) (hc : c.WF) :
    (a.union b).union c = a.union (b.union c) := by
  by_cases h1 : a.truthy = true
  · have pa := wf_truthy_proper ha h1
    by_cases h2 : b.truthy = true
    · have pb := wf_truthy_proper hb h2
      by_cases h3 : c.truthy = true
      · have pc := wf_truthy_proper hc h3
        rw [union_proper (union_isProper pa pb) pc, union_proper pa (union_isProper pb pc),
          union_proper pa pb, union_proper pb pc]
        simp [min_assoc, max_assoc]
      · rw [union_false_right (union_isProper pa pb).truthy (by simpa using h3),
          union_false_right h2 (by simpa using h3)]
    · rw [union_false_right h1 (by simpa using h2), union_false_left (a := b) (by simpa using h2)]
  · rw [union_false_left (a := a) (b := b) (by simpa using h1), union_false_left (a := a) (by simpa using h1)]

theorem not_truthy_inside {b : BBox K} (h : b.truthy = false) (p : K × K) : ¬ b.Inside p := by
  rintro ⟨h1, h2, h3, h4⟩
  have : b.truthy = true := (truthy_iff b).mpr ⟨ne_of_lt (lt_of_le_of_lt h1 h2), ne_of_lt (lt_of_le_of_lt h3 h4)⟩
  simp [this] at h

theorem empty_inside (p : K × K) : ¬ (empty : BBox K).Inside p := by
  rintro ⟨h1, h2, h3, h4⟩
  simp only [empty] at *
  order

theorem inter_inside (a b : BBox K) (p : K × K) : (a.inter b).Inside p ↔ a.Inside p ∧ b.Inside p := by
  simp only [inter]
  split_ifs with h h2
  · simp only [Bool.or_eq_true, Bool.not_eq_true'] at h
    constructor
    · intro h'; exact absurd h' (empty_inside p)
    · rintro ⟨h1, h2⟩
      rcases h with h | h
      · exact absurd h1 (not_truthy_inside h p)
      · exact absurd h2 (not_truthy_inside h p)
  · constructor
    · intro h'; exact absurd h' (empty_inside p)
    · rintro ⟨⟨a1, a2, a3, a4⟩, ⟨b1, b2, b3, b4⟩⟩
      exfalso
      rcases h2 with h2 | h2
      · have : p.1 < min a.x1 b.x1 := lt_min a2 b2
        have : max a.x0 b.x0 ≤ p.1 := max_le a1 b1
        order
      · have : p.2 < min a.y1 b.y1 := lt_min a4 b4
        have : max a.y0 b.y0 ≤ p.2 := max_le a3 b3
        order
  · simp only [Inside, ofCorners, max_le_iff, lt_min_iff]
    tauto

end
end Coral.BBox
