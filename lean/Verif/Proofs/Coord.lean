import Verif.Model.Coord
import Verif.Spec.Coord
import Mathlib.Tactic.Linarith
import Mathlib.Tactic.Ring
import Mathlib.Tactic.FieldSimp
import Mathlib.Tactic.Push
import Mathlib.Tactic.NormNum
import Mathlib.Tactic.IntervalCases
import Mathlib.Algebra.Order.Floor.Semiring

set_option linter.unusedSectionVars false
namespace Coral

section
variable {K : Type} [Field K] [LinearOrder K] [IsStrictOrderedRing K] [FloorRing K]

theorem nearest_nonneg {x : K} (h : 0 ≤ x) : nearest x = ⌊x + 1 / 2⌋ := by
  have : (0 : K) ≤ x + 1 / 2 := by linarith
  simp only [nearest, copysign, if_pos h, pyTrunc, if_pos this]

theorem nearest_neg {x : K} (h : x < 0) : nearest x = ⌈x - 1 / 2⌉ := by
  have : ¬ (0 : K) ≤ x + -(1 / 2) := by linarith
  simp only [nearest, copysign, if_neg (not_le.mpr h), pyTrunc, if_neg this]
  rw [sub_eq_add_neg]

/-- Two-sided bounds: nearest rounds half away from zero. -/
theorem nearest_bounds_nonneg {x : K} (h : 0 ≤ x) : (nearest x : K) ≤ x + 1 / 2 ∧ x - 1 / 2 < nearest x := by
  rw [nearest_nonneg h]
  have h1 := Int.floor_le (x + 1 / 2)
  have h2 := Int.lt_floor_add_one (x + 1 / 2)
  constructor <;> linarith

theorem nearest_bounds_neg {x : K} (h : x < 0) : (nearest x : K) < x + 1 / 2 ∧ x - 1 / 2 ≤ nearest x := by
  rw [nearest_neg h]
  have h1 := Int.le_ceil (x - 1 / 2)
  have h2 := Int.ceil_lt_add_one (x - 1 / 2)
  constructor <;> linarith

theorem nearest_abs (x : K) : |(nearest x : K) - x| ≤ 1 / 2 := by
  rw [abs_le]
  rcases le_or_gt 0 x with h | h
  · have := nearest_bounds_nonneg h; constructor <;> linarith
  · have := nearest_bounds_neg h; constructor <;> linarith

theorem nearest_sign_nonneg {x : K} (h : 0 ≤ x) : 0 ≤ nearest x := by
  rw [nearest_nonneg h]; exact Int.floor_nonneg.mpr (by linarith)

theorem nearest_sign_neg {x : K} (h : x < 0) : nearest x ≤ 0 := by
  rw [nearest_neg h]
  exact Int.ceil_le.mpr (by push_cast; linarith)

theorem nearest_odd (x : K) : nearest (-x) = - nearest x := by
  rcases lt_trichotomy x 0 with h | h | h
  · rw [nearest_neg h, nearest_nonneg (by linarith), ← Int.floor_neg]
    congr 1; ring
  · subst h
    rw [neg_zero, nearest_nonneg le_rfl]
    have : ⌊(0 : K) + 1 / 2⌋ = 0 := by
      rw [Int.floor_eq_iff]; push_cast; constructor <;> norm_num
    rw [this]; rfl
  · rw [nearest_nonneg h.le, nearest_neg (by linarith), ← Int.ceil_neg]
    congr 1; ring

theorem nearest_mono {x y : K} (h : x ≤ y) : nearest x ≤ nearest y := by
  rcases le_or_gt 0 x with hx | hx
  · rw [nearest_nonneg hx, nearest_nonneg (hx.trans h)]
    exact Int.floor_le_floor (by linarith)
  · rcases le_or_gt 0 y with hy | hy
    · exact (nearest_sign_neg hx).trans (nearest_sign_nonneg hy)
    · rw [nearest_neg hx, nearest_neg hy]
      exact Int.ceil_le_ceil (by linarith)

theorem nearest_intCast (n : Int) : nearest (n : K) = n := by
  have h := nearest_abs (n : K)
  rw [← Int.cast_sub, abs_le] at h
  have h1 : ((-1 : Int) : K) < ((nearest (n : K) - n : Int) : K) := by
    push_cast at h ⊢
    have := h.1
    have h2 : (-1 : K) < -(1/2) := by norm_num
    linarith
  have h2 : ((nearest (n : K) - n : Int) : K) < ((1 : Int) : K) := by
    push_cast at h ⊢
    have := h.2
    have h2 : (1/2 : K) < 1 := by norm_num
    linarith
  have h1 := Int.cast_lt.mp h1
  have h2 := Int.cast_lt.mp h2
  omega

theorem pyFMod_bounds (x : K) {m : K} (hm : 0 < m) : 0 ≤ pyFMod x m ∧ pyFMod x m < m := by
  unfold pyFMod
  have h1 := Int.floor_le (x / m)
  have h2 := Int.lt_floor_add_one (x / m)
  rw [le_div_iff₀ hm] at h1
  rw [div_lt_iff₀ hm] at h2
  constructor <;> nlinarith

theorem pyFMod_add_mul (x : K) {m : K} (hm : 0 < m) (n : Int) : pyFMod (x + m * n) m = pyFMod x m := by
  unfold pyFMod
  have : (x + m * n) / m = x / m + n := by field_simp
  rw [this, Int.floor_add_intCast]
  push_cast
  ring

end
end Coral
