import Verif.PyNum
import Mathlib.Data.Int.Log
import Mathlib.Algebra.Order.Archimedean.Basic
import Mathlib.Algebra.Order.Field.Power
import Mathlib.Tactic.Positivity
import Mathlib.Tactic.GCongr
import Mathlib.Tactic.FieldSimp
import Mathlib.Data.Rat.Floor

/-!
# Python's `float`

Finite IEEE binary64 numbers as rationals, and rounding to nearest, ties to even: the result of one operation of `+ - * /` on floats is `fl` of
the exact result. Not modelled: infinities, `nan` and the sign of zero; there is no largest number.
-/
namespace Coral

/-- The doubles: 53 bits, no exponent below that of the subnormal numbers. -/
def IsDouble (x : ℚ) : Prop := ∃ m e : ℤ, |m| < 2 ^ 53 ∧ -1074 ≤ e ∧ x = m * 2 ^ e

/-- The exponent of the last bit of `x` when it is rounded. -/
def expOf (x : ℚ) : ℤ := max (Int.log 2 |x| - 52) (-1074)

/-- Rounding to the nearest double, ties to the one with the even last bit. -/
def fl (x : ℚ) : ℚ := (pyRound (x / 2 ^ expOf x) : ℚ) * 2 ^ expOf x

theorem two_zpow_pos (e : ℤ) : (0 : ℚ) < 2 ^ e := by positivity

theorem zpow_split {e f : ℤ} (h : e ≤ f) : ∃ k : ℕ, (2 : ℚ) ^ f = ((2 ^ k : ℤ) : ℚ) * 2 ^ e := by
  refine ⟨(f - e).toNat, ?_⟩
  have h1 : f = ((f - e).toNat : ℤ) + e := by omega
  conv_lhs => rw [h1, zpow_add₀ (by norm_num), zpow_natCast]
  push_cast
  rfl

theorem abs_lt_exp (x : ℚ) : |x| < 2 ^ (expOf x + 53) := by
  have h := Int.lt_zpow_succ_log_self (R := ℚ) (b := 2) (by norm_num) |x|
  refine lt_of_lt_of_le h ?_
  have : Int.log 2 |x| + 1 ≤ expOf x + 53 := by have := le_max_left (Int.log 2 |x| - 52) (-1074); unfold expOf; omega
  exact_mod_cast zpow_le_zpow_right₀ (by norm_num : (1 : ℚ) ≤ 2) this

theorem exp_ge (x : ℚ) : -1074 ≤ expOf x := le_max_right _ _

theorem exp_le_abs {x : ℚ} (hx : x ≠ 0) (h : expOf x ≠ -1074) : (2 : ℚ) ^ (expOf x + 52) ≤ |x| := by
  have h1 : expOf x = Int.log 2 |x| - 52 := by
    unfold expOf at *
    omega
  have h2 := Int.zpow_log_le_self (R := ℚ) (b := 2) (by norm_num) (abs_pos.mpr hx)
  rw [h1, show Int.log 2 |x| - 52 + 52 = Int.log 2 |x| by ring]
  exact_mod_cast h2

theorem exp_le {x : ℚ} (hx : x ≠ 0) {e : ℤ} (he : -1074 ≤ e) (h : |x| < 2 ^ (e + 53)) : expOf x ≤ e := by
  unfold expOf
  have : Int.log 2 |x| < e + 53 := (Int.lt_zpow_iff_log_lt (by norm_num) (abs_pos.mpr hx)).mp (by exact_mod_cast h)
  omega

theorem pyRound_closest (x : ℚ) (n : ℤ) : |(pyRound x : ℚ) - x| ≤ |(n : ℚ) - x| := by
  by_cases h : n = pyRound x
  · rw [h]
  · have h1 := pyRound_abs x
    have h2 : (1 : ℚ) ≤ |(n : ℚ) - pyRound x| := by
      rw [← Int.cast_sub, ← Int.cast_abs]
      have : (1 : ℤ) ≤ |n - pyRound x| := Int.one_le_abs (sub_ne_zero.mpr h)
      exact_mod_cast this
    have h3 : |(n : ℚ) - pyRound x| ≤ |(n : ℚ) - x| + |(pyRound x : ℚ) - x| := by
      rw [abs_sub_comm (pyRound x : ℚ) x]
      calc |(n : ℚ) - pyRound x| = |((n : ℚ) - x) + (x - pyRound x)| := by ring_nf
        _ ≤ _ := abs_add_le _ _
    linarith

theorem fl_grid (x : ℚ) (n : ℤ) : |fl x - x| ≤ |(n : ℚ) * 2 ^ expOf x - x| := by
  have hp := two_zpow_pos (expOf x)
  have h := pyRound_closest (x / 2 ^ expOf x) n
  have e : ∀ k : ℚ, k * 2 ^ expOf x - x = (k - x / 2 ^ expOf x) * 2 ^ expOf x := by intro k; field_simp
  rw [fl, e, e, abs_mul, abs_mul]
  exact mul_le_mul_of_nonneg_right h (abs_nonneg _)

/-- A double that is not too small is a multiple of the last bit. -/
theorem double_grid {d : ℚ} {m e E : ℤ} (hm : |m| < 2 ^ 53) (hd : d = m * 2 ^ e) (h : E ≤ e ∨ (2 : ℚ) ^ (E + 52) ≤ |d|) :
    ∃ n : ℤ, d = n * 2 ^ E := by
  have hE : E ≤ e := by
    rcases h with h | h
    · exact h
    · by_contra hc
      have h1 : |d| < 2 ^ (e + 53) := by
        rw [hd, abs_mul, abs_of_pos (two_zpow_pos e), zpow_add₀ (by norm_num), mul_comm]
        have : |(m : ℚ)| < 2 ^ (53 : ℤ) := by exact_mod_cast hm
        exact mul_lt_mul_of_pos_left this (two_zpow_pos e)
      have h2 : (2 : ℚ) ^ (e + 53) ≤ 2 ^ (E + 52) := zpow_le_zpow_right₀ (by norm_num) (by omega)
      linarith
  obtain ⟨k, hk⟩ := zpow_split hE
  exact ⟨m * 2 ^ k, by rw [hd, hk]; push_cast; ring⟩

/-- No double is closer to `x` than `fl x`. -/
theorem fl_nearest (x : ℚ) {d : ℚ} (hd : IsDouble d) : |fl x - x| ≤ |d - x| := by
  obtain ⟨m, e, hm, he, hd⟩ := hd
  by_cases h : expOf x ≤ e ∨ (2 : ℚ) ^ (expOf x + 52) ≤ |d|
  · obtain ⟨n, rfl⟩ := double_grid hm hd h
    exact fl_grid x n
  · push Not at h
    by_cases hx : x = 0
    · have : fl x = x := by
        have := fl_grid x 0
        rw [hx] at this ⊢
        simpa using this
      rw [this]; simp
    have hlow := exp_le_abs hx (by omega)
    have hpos := two_zpow_pos (expOf x + 52)
    have hsplit : (2 : ℚ) ^ (expOf x + 52) = 4503599627370496 * 2 ^ expOf x := by
      rw [zpow_add₀ (by norm_num), mul_comm]; norm_num
    rcases lt_or_gt_of_ne hx with hneg | hxp
    · have h1 := fl_grid x (-2 ^ 52)
      refine h1.trans ?_
      push_cast
      rw [abs_of_neg hneg] at hlow
      have h3 := (abs_lt.mp h.2).1
      rw [show -(4503599627370496 : ℚ) * 2 ^ expOf x = -2 ^ (expOf x + 52) by rw [hsplit]; ring]
      rw [abs_of_nonneg (by linarith), abs_of_nonneg (by linarith)]
      linarith
    · have h1 := fl_grid x (2 ^ 52)
      refine h1.trans ?_
      push_cast
      rw [abs_of_pos hxp] at hlow
      have h3 := (abs_lt.mp h.2).2
      rw [← hsplit]
      rw [abs_of_nonpos (by linarith), abs_of_nonpos (by linarith)]
      linarith

theorem fl_double (x : ℚ) : IsDouble (fl x) := by
  have hp := two_zpow_pos (expOf x)
  have h1 : |x / 2 ^ expOf x| < 2 ^ 53 := by
    rw [abs_div, abs_of_pos hp, div_lt_iff₀ hp]
    have := abs_lt_exp x
    rw [zpow_add₀ (by norm_num), mul_comm] at this
    exact_mod_cast this
  have h2 : |pyRound (x / 2 ^ expOf x)| ≤ 2 ^ 53 := by
    rw [abs_le]
    have := abs_lt.mp h1
    constructor
    · refine le_pyRound_of_le ?_
      push_cast; linarith
    · refine pyRound_le_of_le ?_
      push_cast; linarith
  rcases lt_or_eq_of_le h2 with h3 | h3
  · exact ⟨_, _, h3, exp_ge x, rfl⟩
  · have hE : (2 : ℚ) ^ (expOf x + 1) = 2 * 2 ^ expOf x := by rw [zpow_add₀ (by norm_num)]; ring
    rcases abs_eq (by norm_num : (0 : ℤ) ≤ 2 ^ 53) |>.mp h3 with h4 | h4
    · refine ⟨2 ^ 52, expOf x + 1, by norm_num, by have := exp_ge x; omega, ?_⟩
      rw [fl, h4, hE]; push_cast; ring
    · refine ⟨-2 ^ 52, expOf x + 1, by norm_num, by have := exp_ge x; omega, ?_⟩
      rw [fl, h4, hE]; push_cast; ring

theorem fl_id {x : ℚ} (h : IsDouble x) : fl x = x := by
  have := fl_nearest x h
  rw [sub_self, abs_zero] at this
  exact sub_eq_zero.mp (abs_nonpos_iff.mp this)

theorem fl_mono {x y : ℚ} (h : x ≤ y) : fl x ≤ fl y := by
  by_contra hc
  push Not at hc
  have h1 := fl_nearest x (fl_double y)
  have h2 := fl_nearest y (fl_double x)
  rw [← sq_le_sq] at h1 h2
  have h3 : 0 < fl x - fl y := by linarith
  have h4 : fl x + fl y ≤ 2 * x := by
    by_contra h5
    push Not at h5
    nlinarith [mul_pos h3 (by linarith : 0 < fl x + fl y - 2 * x)]
  have h5 : 2 * y ≤ fl x + fl y := by
    by_contra h6
    push Not at h6
    nlinarith [mul_pos h3 (by linarith : 0 < 2 * y - (fl x + fl y))]
  have : x = y := by linarith
  rw [this] at hc
  exact lt_irrefl _ hc

theorem fl_le {x d : ℚ} (hd : IsDouble d) (h : x ≤ d) : fl x ≤ d := by rw [← fl_id hd]; exact fl_mono h

theorem le_fl {x d : ℚ} (hd : IsDouble d) (h : d ≤ x) : d ≤ fl x := by
  have := fl_mono h
  rwa [fl_id hd] at this

theorem pyRound_neg (x : ℚ) : pyRound (-x) = - pyRound x := by
  have h1 := Int.floor_le x
  have h2 := Int.lt_floor_add_one x
  by_cases hi : x = ⌊x⌋
  · rw [hi, ← Int.cast_neg, pyRound_intCast, pyRound_intCast]
  · have hlt : (⌊x⌋ : ℚ) < x := lt_of_le_of_ne h1 (fun h => hi h.symm)
    have hf : ⌊-x⌋ = -⌊x⌋ - 1 := by
      rw [Int.floor_eq_iff]
      push_cast
      constructor <;> linarith
    simp only [pyRound, hf]
    push_cast
    by_cases a : x - ⌊x⌋ < 1 / 2
    · rw [if_neg (by linarith), if_pos (by linarith), if_pos a]; ring
    · by_cases b : 1 / 2 < x - ⌊x⌋
      · rw [if_pos (by linarith), if_neg a, if_pos b]; ring
      · rw [if_neg (by linarith), if_neg (by linarith), if_neg a, if_neg b]
        by_cases c : ⌊x⌋ % 2 = 0
        · rw [if_neg (by omega), if_pos c]; ring
        · rw [if_pos (by omega), if_neg c]; ring

theorem fl_neg (x : ℚ) : fl (-x) = - fl x := by
  have : expOf (-x) = expOf x := by simp [expOf]
  rw [fl, this, neg_div, pyRound_neg, fl]
  push_cast
  ring

theorem double_neg {x : ℚ} (h : IsDouble x) : IsDouble (-x) := by
  obtain ⟨m, e, hm, he, rfl⟩ := h
  exact ⟨-m, e, by rwa [abs_neg], he, by push_cast; ring⟩

/-- Numbers of few bits are doubles. -/
theorem double_mk {m e : ℤ} (hm : |m| ≤ 2 ^ 53) (he : -1074 ≤ e) : IsDouble (m * 2 ^ e) := by
  rcases lt_or_eq_of_le hm with h | h
  · exact ⟨m, e, h, he, rfl⟩
  · have hE : (2 : ℚ) ^ (e + 1) = 2 * 2 ^ e := by rw [zpow_add₀ (by norm_num)]; ring
    rcases abs_eq (by norm_num : (0 : ℤ) ≤ 2 ^ 53) |>.mp h with h4 | h4
    · exact ⟨2 ^ 52, e + 1, by norm_num, by omega, by rw [h4, hE]; push_cast; ring⟩
    · exact ⟨-2 ^ 52, e + 1, by norm_num, by omega, by rw [h4, hE]; push_cast; ring⟩

theorem double_int {n : ℤ} (h : |n| ≤ 2 ^ 53) : IsDouble n := by
  have := double_mk h (e := 0) (by norm_num)
  simpa using this

/-- The error of one operation. -/
theorem fl_error (x : ℚ) : |fl x - x| ≤ |x| * 2 ^ (-53 : ℤ) + 2 ^ (-1075 : ℤ) := by
  by_cases hx0 : x = 0
  · have : fl x = x := fl_id ⟨0, 0, by norm_num, by norm_num, by simp [hx0]⟩
    rw [this, hx0]
    simp only [sub_self, abs_zero, zero_mul, zero_add]
    exact (two_zpow_pos _).le
  have hp := two_zpow_pos (expOf x)
  have h0 : |fl x - x| ≤ 2 ^ expOf x / 2 := by
    have h := pyRound_abs (x / 2 ^ expOf x)
    have e : fl x - x = ((pyRound (x / 2 ^ expOf x) : ℚ) - x / 2 ^ expOf x) * 2 ^ expOf x := by rw [fl]; field_simp
    rw [e, abs_mul, abs_of_pos hp]
    calc _ ≤ 1 / 2 * (2 : ℚ) ^ expOf x := mul_le_mul_of_nonneg_right h hp.le
      _ = _ := by ring
  refine h0.trans ?_
  have hs := two_zpow_pos (-1075)
  have hm : 0 ≤ |x| * (2 : ℚ) ^ (-53 : ℤ) := by positivity
  by_cases hE : expOf x = -1074
  · rw [hE]
    have : (2 : ℚ) ^ (-1074 : ℤ) / 2 = 2 ^ (-1075 : ℤ) := by
      rw [show (-1074 : ℤ) = -1075 + 1 by norm_num, zpow_add₀ (by norm_num)]; ring
    rw [this]
    exact le_add_of_nonneg_left hm
  · by_cases hx : x = 0
    · exact absurd hx hx0
    · have h1 := exp_le_abs hx hE
      have h2 : (2 : ℚ) ^ expOf x / 2 = 2 ^ (expOf x + 52) * 2 ^ (-53 : ℤ) := by
        rw [← zpow_add₀ (by norm_num), show expOf x + 52 + -53 = expOf x - 1 by ring, zpow_sub₀ (by norm_num)]; norm_num
      rw [h2]
      exact (mul_le_mul_of_nonneg_right h1 (two_zpow_pos (-53)).le).trans (le_add_of_nonneg_right hs.le)

end Coral
