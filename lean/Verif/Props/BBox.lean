import Verif.Proofs.BBox
import Mathlib.Tactic.NormNum
import Mathlib.Logic.Equiv.List
import Mathlib.Algebra.Order.Ring.Rat

/-! # Properties of `coral/bbox.py` (C01–C08) -/

set_option linter.unusedSectionVars false

namespace Coral
open BBox

/-! ### C01 -/

section
variable {K : Type} [LinearOrder K]

/-- C01: `BBox(points)` succeeds on every non-empty sequence, covers every point, every side is touched by a point,
and it is contained in every box covering the points. -/
theorem C01_bbox_of_points (ps : List (K × K)) (h : ps ≠ []) :
    ∃ b, BBox.ofPoints ps = .ok b ∧ b.WF ∧ b.Tight ps ∧ b.IsLeast ps := by
  cases ps with
  | nil => exact absurd rfl h
  | cons p ps =>
    obtain ⟨b, e, w, c, t⟩ := ofPoints_spec p ps
    exact ⟨b, e, w, t, tight_least b _ c t⟩

/-- C01: the empty sequence raises `StopIteration`. -/
theorem C01_bbox_of_no_points : BBox.ofPoints ([] : List (K × K)) = .error .stopIteration := rfl

/-- C01: the result does not depend on the order of the points. -/
theorem C01_bbox_order_independent (ps qs : List (K × K)) (h : ∀ p, p ∈ ps ↔ p ∈ qs) :
    BBox.ofPoints ps = BBox.ofPoints qs := by
  by_cases hp : ps = []
  · subst hp
    have : qs = [] := by
      rcases qs with _ | ⟨q, qs⟩
      · rfl
      · exact absurd ((h q).mpr (by simp)) (by simp)
    rw [this]
  · have hq : qs ≠ [] := by
      rintro rfl
      rcases ps with _ | ⟨q, ps⟩
      · exact hp rfl
      · exact absurd ((h q).mp (by simp)) (by simp)
    obtain ⟨b, eb, wb, tb, lb⟩ := C01_bbox_of_points ps hp
    obtain ⟨c, ec, wc, tc, lc⟩ := C01_bbox_of_points qs hq
    have h1 := lb.2 c (fun p m => lc.1 p ((h p).mp m))
    have h2 := lc.2 b (fun p m => lb.1 p ((h p).mpr m))
    obtain ⟨a1, -, a3, -⟩ := h1 (b.x0, b.y0) ⟨le_refl _, wb.1, le_refl _, wb.2⟩
    obtain ⟨-, a2, -, a4⟩ := h1 (b.x1, b.y1) ⟨wb.1, le_refl _, wb.2, le_refl _⟩
    obtain ⟨d1, -, d3, -⟩ := h2 (c.x0, c.y0) ⟨le_refl _, wc.1, le_refl _, wc.2⟩
    obtain ⟨-, d2, -, d4⟩ := h2 (c.x1, c.y1) ⟨wc.1, le_refl _, wc.2, le_refl _⟩
    rw [eb, ec]
    congr 1
    rcases b with ⟨_, _, _, _⟩
    rcases c with ⟨_, _, _, _⟩
    simp only [BBox.mk.injEq]
    exact ⟨le_antisymm d1 a1, le_antisymm d3 a3, le_antisymm a2 d2, le_antisymm a4 d4⟩

end

example : BBox.ofPoints [((3 : ℚ), (1 : ℚ)), (-2, 5), (0, 0)] = .ok ⟨-2, 0, 3, 5⟩ := by decide +kernel

section
variable {K : Type} [Field K] [LinearOrder K] [IsStrictOrderedRing K]

/-! ### C02 -/

/-- C02, proved part: for boxes of positive width and height the union covers both operands and is contained in every
box that does. Missing: degenerate operands, for which the claim is false (`C02_union_violated`). -/
theorem C02_union_partial (a b : BBox K) (ha : a.Proper) (hb : b.Proper) :
    (∀ p, a.Covers p ∨ b.Covers p → (a.union b).Covers p) ∧
    (∀ c : BBox K, (∀ p, a.Covers p → c.Covers p) → (∀ p, b.Covers p → c.Covers p) →
      ∀ p, (a.union b).Covers p → c.Covers p) := by
  rw [union_proper ha hb]
  constructor
  · rintro p (⟨h1, h2, h3, h4⟩ | ⟨h1, h2, h3, h4⟩)
    · exact ⟨le_trans (min_le_left _ _) h1, le_trans h2 (le_max_left _ _),
        le_trans (min_le_left _ _) h3, le_trans h4 (le_max_left _ _)⟩
    · exact ⟨le_trans (min_le_right _ _) h1, le_trans h2 (le_max_right _ _),
        le_trans (min_le_right _ _) h3, le_trans h4 (le_max_right _ _)⟩
  · intro c hca hcb p ⟨h1, h2, h3, h4⟩
    obtain ⟨a1, -, a3, -⟩ := hca (a.x0, a.y0) ⟨le_refl _, ha.1.le, le_refl _, ha.2.le⟩
    obtain ⟨-, a2, -, a4⟩ := hca (a.x1, a.y1) ⟨ha.1.le, le_refl _, ha.2.le, le_refl _⟩
    obtain ⟨b1, -, b3, -⟩ := hcb (b.x0, b.y0) ⟨le_refl _, hb.1.le, le_refl _, hb.2.le⟩
    obtain ⟨-, b2, -, b4⟩ := hcb (b.x1, b.y1) ⟨hb.1.le, le_refl _, hb.2.le, le_refl _⟩
    exact ⟨le_trans (le_min a1 b1) h1, le_trans h2 (max_le a2 b2),
      le_trans (le_min a3 b3) h3, le_trans h4 (max_le a4 b4)⟩

/-- C02: exactly when the union is the least box around both, for all boxes with corners in order: if both have extent, or one that has none
lies within the result. -/
theorem C02_union_exact_partial (a b : BBox K) (ha : a.WF) (hb : b.WF) :
    ((∀ p, a.Covers p ∨ b.Covers p → (a.union b).Covers p) ∧
      (∀ c : BBox K, (∀ p, a.Covers p → c.Covers p) → (∀ p, b.Covers p → c.Covers p) → ∀ p, (a.union b).Covers p → c.Covers p)) ↔
    (a.Proper ∧ (b.Proper ∨ ∀ p, b.Covers p → a.Covers p)) ∨ (¬ a.Proper ∧ ∀ p, a.Covers p → b.Covers p) := by
  have proper_iff : ∀ c : BBox K, c.WF → (c.truthy = true ↔ c.Proper) := fun c hc => ⟨wf_truthy_proper hc, fun h => h.truthy⟩
  by_cases hpa : a.Proper
  · by_cases hpb : b.Proper
    · exact ⟨fun _ => .inl ⟨hpa, .inl hpb⟩, fun _ => C02_union_partial a b hpa hpb⟩
    · have e : a.union b = a := union_false_right hpa.truthy (by rw [← Bool.not_eq_true, proper_iff b hb]; exact hpb)
      rw [e]
      constructor
      · exact fun h => .inl ⟨hpa, .inr fun p hp => h.1 p (.inr hp)⟩
      · rintro (⟨-, h | h⟩ | ⟨h, -⟩)
        · exact absurd h hpb
        · exact ⟨fun p hp => hp.elim id (h p), fun c hc _ => hc⟩
        · exact absurd hpa h
  · have e : a.union b = b := union_false_left (by rw [← Bool.not_eq_true, proper_iff a ha]; exact hpa)
    rw [e]
    constructor
    · exact fun h => .inr ⟨hpa, fun p hp => h.1 p (.inl hp)⟩
    · rintro (⟨h, -⟩ | ⟨-, h⟩)
      · exact absurd h hpa
      · exact ⟨fun p hp => hp.elim (h p) id, fun c _ hc => hc⟩

/-- C02, proved part: union is commutative and idempotent on boxes of positive extent, `BBox()` is neutral, and it is
associative on all well-formed boxes (so the order in which extents are accumulated by `|` does not matter). -/
theorem C02_union_laws_partial :
    (∀ a b : BBox K, a.Proper → b.Proper → a.union b = b.union a) ∧
    (∀ a : BBox K, a.Proper → a.union a = a) ∧
    (∀ a : BBox K, BBox.empty.union a = a) ∧
    (∀ a : BBox K, a.Proper → a.union BBox.empty = a) ∧
    (∀ a b c : BBox K, a.WF → b.WF → c.WF → (a.union b).union c = a.union (b.union c)) := by
  refine ⟨?_, ?_, ?_, ?_, fun a b c ha hb hc => union_assoc ha hb hc⟩
  · intro a b ha hb
    rw [union_proper ha hb, union_proper hb ha]
    simp [min_comm, max_comm]
  · intro a ha
    rw [union_proper ha ha]
    simp
  · intro a
    exact union_false_left (by simp [truthy, area, BBox.empty])
  · intro a ha
    exact union_false_right ha.truthy (by simp [truthy, area, BBox.empty])

end

example : (⟨0, 0, 1, 2⟩ : BBox ℚ).Proper ∧ (⟨-1, 1, 3, 4⟩ : BBox ℚ).Proper := by
  constructor <;> constructor <;> norm_num

/-- C02 is false for degenerate boxes: the union of a proper box with the box of a horizontal segment loses the
segment, and the union of the boxes of two segments loses the first. -/
theorem C02_union_violated :
    ∃ a b : BBox ℚ, a.Proper ∧ b.WF ∧ ∃ p, b.Covers p ∧ ¬ (a.union b).Covers p := by
  refine ⟨⟨0, 0, 1, 1⟩, ⟨0, 5, 10, 5⟩, ⟨by norm_num, by norm_num⟩, ⟨by norm_num, by norm_num⟩, (10, 5),
    ⟨by norm_num, by norm_num, by norm_num, by norm_num⟩, ?_⟩
  have h : (⟨0, 0, 1, 1⟩ : BBox ℚ).union ⟨0, 5, 10, 5⟩ = ⟨0, 0, 1, 1⟩ := by decide +kernel
  rw [h]
  rintro ⟨-, h2, -, -⟩
  norm_num at h2

section
variable {K : Type} [Field K] [LinearOrder K] [IsStrictOrderedRing K]

/-! ### C03 -/

/-- C03: `p in (a & b)` iff `p in a` and `p in b`, for all boxes and points. -/
theorem C03_intersection (a b : BBox K) (p : K × K) :
    (a.inter b).hasPoint p = true ↔ a.hasPoint p = true ∧ b.hasPoint p = true := by
  rw [hasPoint_iff, hasPoint_iff, hasPoint_iff, inter_inside]

/-- C03: half-open membership is what `in` computes. -/
theorem C03_in_is_half_open (b : BBox K) (x y : K) :
    b.contains (.pair x y) = .ok true ↔ (b.x0 ≤ x ∧ x < b.x1) ∧ (b.y0 ≤ y ∧ y < b.y1) := by
  simp only [BBox.contains, Except.ok.injEq]
  rw [hasPoint_iff]
  simp only [Inside]
  tauto

/-- C03: without a common point the intersection is the empty box `BBox()`, which is falsy. -/
theorem C03_disjoint_empty (a b : BBox K) (h : ∀ p, ¬ (a.hasPoint p = true ∧ b.hasPoint p = true)) :
    a.inter b = BBox.empty := by
  by_contra hne
  have h2 : ∀ p, ¬ (a.inter b).Inside p := by
    intro p hp
    rw [inter_inside] at hp
    exact h p ⟨(hasPoint_iff _ _).mpr hp.1, (hasPoint_iff _ _).mpr hp.2⟩
  simp only [inter] at hne h2
  split_ifs at hne h2 with c1 c2
  all_goals (try exact hne rfl)
  push Not at c2
  exact h2 (max a.x0 b.x0, max a.y0 b.y0) ⟨le_refl _, c2.1, le_refl _, c2.2⟩

example : ∃ p, ((⟨0, 0, 2, 2⟩ : BBox ℚ).inter ⟨1, 1, 3, 3⟩).hasPoint p = true := ⟨(1, 1), by decide +kernel⟩

/-! ### C04 -/

/-- C04: `collide` is symmetric for all boxes. -/
theorem C04_collide_comm (a b : BBox K) : a.collide b = b.collide a := by
  simp only [collide]
  rw [Bool.or_comm, Bool.or_comm (decide (a.y0 ≤ b.y0) && decide (b.y0 < a.y1))]

/-- C04: boxes of positive extent collide iff they share a point. -/
theorem C04_collide_iff_common_point (a b : BBox K) (ha : a.Proper) (hb : b.Proper) :
    a.collide b = true ↔ ∃ p, a.hasPoint p = true ∧ b.hasPoint p = true := by
  simp only [hasPoint_iff]
  simp only [collide, Bool.and_eq_true, Bool.or_eq_true, decide_eq_true_eq, Inside]
  obtain ⟨a1, a2⟩ := ha
  obtain ⟨b1, b2⟩ := hb
  constructor
  · rintro ⟨hx, hy⟩
    refine ⟨(max a.x0 b.x0, max a.y0 b.y0), ⟨le_max_left _ _, ?_, le_max_left _ _, ?_⟩,
      ⟨le_max_right _ _, ?_, le_max_right _ _, ?_⟩⟩ <;> simp only [max_lt_iff] <;> constructor <;>
      rcases hx with hx | hx <;> rcases hy with hy | hy <;> order
  · rintro ⟨p, ⟨p1, p2, p3, p4⟩, ⟨q1, q2, q3, q4⟩⟩
    constructor
    · rcases le_total a.x0 b.x0 with h | h
      · left; constructor <;> order
      · right; constructor <;> order
    · rcases le_total a.y0 b.y0 with h | h
      · left; constructor <;> order
      · right; constructor <;> order

/-- C04: boxes of positive extent collide iff their intersection is truthy. -/
theorem C04_collide_iff_intersection (a b : BBox K) (ha : a.Proper) (hb : b.Proper) :
    a.collide b = true ↔ (a.inter b).truthy = true := by
  rw [C04_collide_iff_common_point a b ha hb]
  constructor
  · rintro ⟨p, h1, h2⟩
    by_contra h
    exact not_truthy_inside (by simpa using h) p
      ((inter_inside a b p).mpr ⟨(hasPoint_iff _ _).mp h1, (hasPoint_iff _ _).mp h2⟩)
  · intro h
    by_contra hn
    push Not at hn
    rw [C03_disjoint_empty a b (by rintro p ⟨h1, h2⟩; exact hn p h1 h2)] at h
    simp [truthy, area, BBox.empty] at h

example : (⟨0, 0, 2, 2⟩ : BBox ℚ).collide ⟨1, 1, 3, 3⟩ = true ∧ (⟨0, 0, 1, 1⟩ : BBox ℚ).collide ⟨1, 0, 2, 1⟩ = false := by
  decide +kernel

/-! ### C05 -/

/-- C05: `b in a` means both corners of `b` are points of `a`. -/
theorem C05_box_in_box_iff (a b : BBox K) :
    a.contains (.bbox b) = .ok true ↔ a.Inside (b.x0, b.y0) ∧ a.Inside (b.x1, b.y1) := by
  simp only [BBox.contains, hasBBox, Except.ok.injEq, Bool.and_eq_true]
  rw [hasPoint_iff, hasPoint_iff]

/-- C05: containment of boxes implies containment of their points (closed extent included). -/
theorem C05_box_in_box_points (a b : BBox K) (h : a.contains (.bbox b) = .ok true) (p : K × K) :
    (b.hasPoint p = true → a.hasPoint p = true) ∧ (b.Covers p → a.hasPoint p = true) := by
  rw [C05_box_in_box_iff] at h
  obtain ⟨⟨h1, h2, h3, h4⟩, ⟨h5, h6, h7, h8⟩⟩ := h
  simp only at *
  constructor
  · intro hp
    obtain ⟨p1, p2, p3, p4⟩ := (hasPoint_iff _ _).mp hp
    exact (hasPoint_iff _ _).mpr ⟨by order, by order, by order, by order⟩
  · rintro ⟨p1, p2, p3, p4⟩
    exact (hasPoint_iff _ _).mpr ⟨by order, by order, by order, by order⟩

/-- C05: no box contains itself. -/
theorem C05_box_not_in_itself (a : BBox K) : a.contains (.bbox a) = .ok false := by
  simp [BBox.contains, hasBBox, hasPoint]

/-- C05: containment of boxes is transitive. -/
theorem C05_box_in_box_trans (a b c : BBox K) (h1 : a.contains (.bbox b) = .ok true)
    (h2 : b.contains (.bbox c) = .ok true) : a.contains (.bbox c) = .ok true := by
  rw [C05_box_in_box_iff] at *
  obtain ⟨⟨a1, a2, a3, a4⟩, ⟨a5, a6, a7, a8⟩⟩ := h1
  obtain ⟨⟨b1, b2, b3, b4⟩, ⟨b5, b6, b7, b8⟩⟩ := h2
  simp only at *
  refine ⟨⟨?_, ?_, ?_, ?_⟩, ⟨?_, ?_, ?_, ?_⟩⟩ <;> simp only <;> order

/-- C05: anything but a box or a pair on the left of `in` raises `TypeError`. -/
theorem C05_other_item (a : BBox K) : a.contains .other = .error .typeError := rfl

end

example : (⟨0, 0, 4, 4⟩ : BBox ℚ).contains (.bbox ⟨1, 1, 3, 3⟩) = .ok true := by decide +kernel

section
variable {K : Type} [Field K] [LinearOrder K] [IsStrictOrderedRing K]

/-! ### C06 -/

/-- C06: translating there and back is the identity. -/
theorem C06_add_sub (b : BBox K) (p : K × K) : (b.add p).sub p = b ∧ (b.sub p).add p = b := by
  constructor <;> simp [add, sub, translate, ofCorners]

/-- C06: translation keeps the dimensions and moves membership and the centre with the box. -/
theorem C06_translate (b : BBox K) (dx dy : K) :
    (b.translate dx dy).width = b.width ∧ (b.translate dx dy).height = b.height ∧
    (b.translate dx dy).area = b.area ∧
    (b.translate dx dy).center = (b.center.1 + dx, b.center.2 + dy) ∧
    ∀ x y, (b.translate dx dy).hasPoint (x + dx, y + dy) = b.hasPoint (x, y) := by
  refine ⟨?_, ?_, ?_, ?_, ?_⟩
  · simp [width, translate, ofCorners]
  · simp [height, translate, ofCorners]
  · simp [area, translate, ofCorners]
  · simp only [center, translate, ofCorners, Prod.mk.injEq]
    constructor <;> ring
  · intro x y
    simp [hasPoint, translate, ofCorners]

/-- C06: scaling keeps the centre, multiplies the sides by the factor and the area by its square. -/
theorem C06_scale (b : BBox K) (f : K) :
    (b.scale f).center = b.center ∧ (b.scale f).width = f * b.width ∧ (b.scale f).height = f * b.height ∧
    (b.scale f).area = f ^ 2 * b.area := by
  refine ⟨?_, ?_, ?_, ?_⟩
  · simp only [center, scale, ofCorners, width, height, Prod.mk.injEq]
    constructor <;> ring
  · simp only [center, scale, ofCorners, width, height]; ring
  · simp only [center, scale, ofCorners, width, height]; ring
  · simp only [center, scale, ofCorners, width, height, area]; ring

/-- C06: scaling by one is the identity and scalings compose. -/
theorem C06_scale_compose (b : BBox K) (f g : K) :
    b.scale 1 = b ∧ (b.scale f).scale g = b.scale (f * g) := by
  constructor
  · rcases b with ⟨_, _, _, _⟩
    simp only [center, scale, ofCorners, width, height, BBox.mk.injEq]
    refine ⟨?_, ?_, ?_, ?_⟩ <;> ring
  · simp only [center, scale, ofCorners, width, height, BBox.mk.injEq]
    refine ⟨?_, ?_, ?_, ?_⟩ <;> ring

/-- C06: dividing undoes multiplying, and division by zero raises. -/
theorem C06_mul_div (b : BBox K) (f : K) :
    (f ≠ 0 → (b.mul f).truediv f = .ok b) ∧ b.truediv 0 = .error .zeroDivisionError := by
  constructor
  · intro hf
    simp only [mul, truediv, hf, if_false]
    rw [(C06_scale_compose b f (1 / f)).2, mul_one_div_cancel hf, (C06_scale_compose b 1 1).1]
  · simp [truediv]

/-! ### C07 -/

/-- C07, proved part: `<` is irreflexive, transitive and asymmetric, incomparability is an equivalence (same area),
and trichotomy holds between boxes of different area. Missing: boxes of equal area (`C07_order_violated`). -/
theorem C07_order_partial (a b c : BBox K) :
    lt a a = false ∧ (lt a b = true → lt b c = true → lt a c = true) ∧
    (lt a b = true → lt b a = false) ∧
    (a.area ≠ b.area → (lt a b = true ∧ gt a b = false ∧ a ≠ b) ∨ (lt a b = false ∧ gt a b = true ∧ a ≠ b)) ∧
    (le a b = true → le b c = true → le a c = true) ∧
    (le a b = true → le b a = true → a = b) := by
  refine ⟨by simp [lt], ?_, ?_, ?_, ?_, ?_⟩
  · simp only [lt, decide_eq_true_eq]; exact lt_trans
  · simp only [lt, decide_eq_true_eq, decide_eq_false_iff_not]; exact fun h => not_lt_of_gt h
  · intro h
    have hab : a ≠ b := fun e => h (by rw [e])
    rcases lt_or_gt_of_ne h with h | h
    · left; simp [lt, gt, gtFrom, h, hab]
    · right; simp [lt, gt, gtFrom, hab, not_lt_of_gt h]
  · simp only [le, leFrom, lt, Bool.or_eq_true, decide_eq_true_eq]
    rintro (h | rfl) (h' | rfl)
    · exact Or.inl (lt_trans h h')
    · exact Or.inl h
    · exact Or.inl h'
    · exact Or.inr rfl
  · simp only [le, leFrom, lt, Bool.or_eq_true, decide_eq_true_eq]
    rintro (h | rfl) (h' | h')
    · exact absurd h' (not_lt_of_gt h)
    · exact h'.symm
    · rfl
    · rfl

/-- C07: exactly one of `a < b`, `a == b` and `a > b` holds, for all boxes; but `a > b` means `b < a` exactly if the areas differ or the boxes are
equal. -/
theorem C07_exact_partial (a b : BBox K) :
    ((lt a b = true ∧ a ≠ b ∧ gt a b = false) ∨ (lt a b = false ∧ a = b ∧ gt a b = false) ∨ (lt a b = false ∧ a ≠ b ∧ gt a b = true)) ∧
    ((gt a b = true ↔ lt b a = true) ↔ (a.area ≠ b.area ∨ a = b)) ∧ ((ge a b = true ↔ le b a = true) ↔ (a.area ≠ b.area ∨ a = b)) := by
  by_cases hab : a = b
  · subst hab
    simp [lt, gt, gtFrom, ge, geFrom, le, leFrom]
  · rcases lt_trichotomy a.area b.area with h | h | h
    · simp [lt, gt, gtFrom, ge, geFrom, le, leFrom, h, hab, h.ne, not_lt_of_gt h, Ne.symm hab]
    · simp [lt, gt, gtFrom, ge, geFrom, le, leFrom, h, hab, Ne.symm hab]
    · simp [lt, gt, gtFrom, ge, geFrom, le, leFrom, h, hab, h.ne', not_lt_of_gt h, Ne.symm hab]

end

/-- C07 is false: two different boxes of equal area are each greater than the other and neither is `<=` the other. -/
theorem C07_order_violated :
    ∃ a b : BBox ℚ, a ≠ b ∧ gt a b = true ∧ gt b a = true ∧ le a b = false ∧ le b a = false := by
  refine ⟨⟨0, 0, 1, 2⟩, ⟨0, 0, 2, 1⟩, ?_⟩
  decide +kernel

/-! ### C08 -/

/-- C08 is false: whatever CPython's tuple hash is, `BBox((-1,0),(1,1)) == BBox((-2,0),(1,1))`. -/
theorem C08_equality_violated (th : List Int → Int) :
    BBox.eqHash th ⟨-1, 0, 1, 1⟩ ⟨-2, 0, 1, 1⟩ = true ∧ (⟨-1, 0, 1, 1⟩ : BBox Int) ≠ ⟨-2, 0, 1, 1⟩ := by
  constructor
  · have h : pyIntHash (-1) = pyIntHash (-2) := by decide
    simp [eqHash, BBox.hash, h]
  · decide

/-- CPython's integer hash is injective on integers below 2^61-1 in absolute value other than -1. -/
theorem pyIntHash_small (n : Int) (h : n.natAbs < 2 ^ 61 - 1) (h1 : n ≠ -1) : pyIntHash n = n := by
  unfold pyIntHash
  rw [Nat.mod_eq_of_lt h, Int.sign_mul_natAbs]
  simp [h1]

/-- C08, proved part: equal corners always compare equal; and, if the tuple hash is free of collisions, boxes whose
coordinates are smaller than 2^61-1 in absolute value and differ from -1 compare equal only if they have equal corners.
Missing: coordinates equal to -1 (false, see `C08_equality_violated`) and huge ones. -/
theorem C08_equality_partial (th : List Int → Int) (a b : BBox Int) :
    (a = b → BBox.eqHash th a b = true) ∧
    (Function.Injective th →
      (∀ v ∈ [a.x0, a.y0, a.x1, a.y1, b.x0, b.y0, b.x1, b.y1], v.natAbs < 2 ^ 61 - 1 ∧ v ≠ -1) →
      BBox.eqHash th a b = true → a = b) := by
  constructor
  · rintro rfl; simp [eqHash]
  · intro hth hs he
    simp only [eqHash, BBox.hash] at he
    have he := hth (of_decide_eq_true he)
    have hv : ∀ v ∈ [a.x0, a.y0, a.x1, a.y1, b.x0, b.y0, b.x1, b.y1], pyIntHash v = v :=
      fun v hm => pyIntHash_small v (hs v hm).1 (hs v hm).2
    simp only [List.mem_cons, List.not_mem_nil, or_false, forall_eq_or_imp, forall_eq] at hv
    obtain ⟨v1, v2, v3, v4, v5, v6, v7, v8⟩ := hv
    rw [v1, v2, v3, v4, v5, v6, v7, v8] at he
    rcases a with ⟨_, _, _, _⟩
    rcases b with ⟨_, _, _, _⟩
    simpa using he

/-- A collision-free tuple hash exists, so the partial theorem is not vacuous. -/
example : ∃ th : List Int → Int, Function.Injective th :=
  ⟨fun l => (Encodable.encode l : Nat), fun _ _ h => Encodable.encode_injective (Int.ofNat_inj.mp h)⟩

end Coral
