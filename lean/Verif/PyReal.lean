import Verif.Py
import Mathlib.Analysis.SpecialFunctions.Trigonometric.Arctan
import Mathlib.Analysis.SpecialFunctions.Complex.Arg
import Mathlib.Analysis.SpecialFunctions.Artanh

/-!
# Python's `math` module over the real numbers

Exact arithmetic: there is no rounding and there are no infinities, NaNs and signed zeros. Functions raise where `math` raises. Where the real
function has no value but the floating-point one returns something (`math.tan(math.pi / 2)`), the model raises `.exception`.
-/
namespace Coral

open Real

noncomputable section

/-- `math.radians` -/
def rad (x : ℝ) : ℝ := x * π / 180

/-- `math.degrees` -/
def deg (x : ℝ) : ℝ := x * 180 / π

/-- `a / b` -/
def rdiv (a b : ℝ) : Py ℝ := if b = 0 then .error .zeroDivisionError else .ok (a / b)

/-- `math.sqrt` -/
def rsqrt (x : ℝ) : Py ℝ := if x < 0 then .error .valueError else .ok (√x)

/-- `math.log` -/
def rlog (x : ℝ) : Py ℝ := if x ≤ 0 then .error .valueError else .ok (log x)

/-- `math.asin` -/
def rasin (x : ℝ) : Py ℝ := if x < -1 ∨ 1 < x then .error .valueError else .ok (arcsin x)

/-- `math.acos` -/
def racos (x : ℝ) : Py ℝ := if x < -1 ∨ 1 < x then .error .valueError else .ok (arccos x)

/-- `math.atanh` -/
def ratanh (x : ℝ) : Py ℝ := if x ≤ -1 ∨ 1 ≤ x then .error .valueError else .ok (artanh x)

/-- `math.tan`; see above for the odd multiples of `math.pi / 2`. -/
def rtan (x : ℝ) : Py ℝ := if cos x = 0 then .error .exception else .ok (tan x)

/-- `math.atan2` -/
def atan2 (y x : ℝ) : ℝ := Complex.arg ⟨x, y⟩

end

/-! ### Facts -/

theorem deg_rad (x : ℝ) : deg (rad x) = x := by
  have := pi_ne_zero
  simp only [deg, rad]
  field_simp

theorem rad_deg (x : ℝ) : rad (deg x) = x := by
  have := pi_ne_zero
  simp only [deg, rad]
  field_simp

theorem rad_sub (x y : ℝ) : rad (x - y) = rad x - rad y := by
  simp only [rad]
  ring

theorem rad_add (x y : ℝ) : rad (x + y) = rad x + rad y := by
  simp only [rad]
  ring

theorem deg_add (x y : ℝ) : deg (x + y) = deg x + deg y := by
  simp only [deg]
  ring

theorem deg_turns (k : ℤ) : deg (2 * π * k) = 360 * k := by
  have := pi_ne_zero
  simp only [deg]
  field_simp
  ring

theorem rad_lt {x y : ℝ} : rad x < rad y ↔ x < y := by
  have := pi_pos
  simp only [rad]
  constructor
  · intro h
    by_contra hc
    have : y * π ≤ x * π := mul_le_mul_of_nonneg_right (not_lt.mp hc) this.le
    linarith
  · intro h
    have : x * π < y * π := mul_lt_mul_of_pos_right h this
    linarith

theorem rad_le {x y : ℝ} : rad x ≤ rad y ↔ x ≤ y := by
  rw [← not_lt, ← not_lt, rad_lt]

theorem deg_lt {x y : ℝ} : deg x < deg y ↔ x < y := by
  rw [← rad_lt, rad_deg, rad_deg]

theorem deg_le {x y : ℝ} : deg x ≤ deg y ↔ x ≤ y := by
  rw [← rad_le, rad_deg, rad_deg]

theorem rad_90 : rad 90 = π / 2 := by
  simp only [rad]
  ring

theorem rad_neg_90 : rad (-90) = -(π / 2) := by
  simp only [rad]
  ring

theorem rad_180 : rad 180 = π := by
  simp only [rad]
  ring

theorem deg_pi : deg π = 180 := by
  rw [← rad_180, deg_rad]

theorem deg_neg (x : ℝ) : deg (-x) = -deg x := by
  simp only [deg]
  ring

theorem rdiv_ok {a b : ℝ} (h : b ≠ 0) : rdiv a b = .ok (a / b) := if_neg h

theorem rsqrt_ok {x : ℝ} (h : 0 ≤ x) : rsqrt x = .ok (√x) := if_neg (not_lt.mpr h)

theorem rlog_ok {x : ℝ} (h : 0 < x) : rlog x = .ok (log x) := if_neg (not_le.mpr h)

theorem rasin_ok {x : ℝ} (h1 : -1 ≤ x) (h2 : x ≤ 1) : rasin x = .ok (arcsin x) := by
  rw [rasin, if_neg]
  rintro (h | h) <;> linarith

theorem racos_ok {x : ℝ} (h1 : -1 ≤ x) (h2 : x ≤ 1) : racos x = .ok (arccos x) := by
  rw [racos, if_neg]
  rintro (h | h) <;> linarith

theorem ratanh_ok {x : ℝ} (h1 : -1 < x) (h2 : x < 1) : ratanh x = .ok (artanh x) := by
  rw [ratanh, if_neg]
  rintro (h | h) <;> linarith

theorem rtan_ok {x : ℝ} (h : cos x ≠ 0) : rtan x = .ok (tan x) := if_neg h

theorem rasin_sin {x : ℝ} (h1 : -(π / 2) ≤ x) (h2 : x ≤ π / 2) : rasin (sin x) = .ok x := by
  rw [rasin_ok (neg_one_le_sin x) (sin_le_one x), arcsin_sin h1 h2]

theorem atan2_range (y x : ℝ) : -π < atan2 y x ∧ atan2 y x ≤ π := ⟨Complex.neg_pi_lt_arg _, Complex.arg_le_pi _⟩

theorem atan2_polar {ρ θ : ℝ} (hρ : 0 < ρ) (h1 : -π < θ) (h2 : θ ≤ π) : atan2 (ρ * sin θ) (ρ * cos θ) = θ := by
  have := Complex.arg_mul_cos_add_sin_mul_I hρ ⟨h1, h2⟩
  rw [atan2]
  convert this using 2
  apply Complex.ext <;> simp [Complex.cos_ofReal_re, Complex.sin_ofReal_re]

theorem atan2_norm (y x : ℝ) : ‖(⟨x, y⟩ : ℂ)‖ = √(x ^ 2 + y ^ 2) := by
  rw [Complex.norm_def, Complex.normSq_mk]
  congr 1
  ring

theorem atan2_cos (y x : ℝ) : √(x ^ 2 + y ^ 2) * cos (atan2 y x) = x := by
  rw [← atan2_norm]
  exact Complex.norm_mul_cos_arg _

theorem atan2_sin (y x : ℝ) : √(x ^ 2 + y ^ 2) * sin (atan2 y x) = y := by
  rw [← atan2_norm]
  exact Complex.norm_mul_sin_arg _

/-- Angles with the same sine and cosine differ by full turns. -/
theorem angle_eq {θ ψ : ℝ} (hc : cos θ = cos ψ) (hs : sin θ = sin ψ) : ∃ k : ℤ, θ = ψ + 2 * π * k := by
  have h : cos (θ - ψ) = 1 := by
    rw [cos_sub, hc, hs]
    have := sin_sq_add_cos_sq ψ
    nlinarith
  obtain ⟨k, hk⟩ := (cos_eq_one_iff _).mp h
  exact ⟨k, by linarith⟩

theorem atan2_mod {ρ θ : ℝ} (hρ : 0 < ρ) : ∃ k : ℤ, atan2 (ρ * sin θ) (ρ * cos θ) = θ + 2 * π * k := by
  have hn : √((ρ * cos θ) ^ 2 + (ρ * sin θ) ^ 2) = ρ := by
    have : (ρ * cos θ) ^ 2 + (ρ * sin θ) ^ 2 = ρ ^ 2 := by
      have := sin_sq_add_cos_sq θ
      linear_combination ρ ^ 2 * this
    rw [this, sqrt_sq hρ.le]
  have h1 := atan2_cos (ρ * sin θ) (ρ * cos θ)
  have h2 := atan2_sin (ρ * sin θ) (ρ * cos θ)
  rw [hn] at h1 h2
  exact angle_eq (mul_left_cancel₀ hρ.ne' h1) (mul_left_cancel₀ hρ.ne' h2)

theorem cos_turns (θ : ℝ) (k : ℤ) : cos (θ + 2 * π * k) = cos θ := by
  rw [mul_comm]
  exact cos_add_int_mul_two_pi θ k

theorem sin_turns (θ : ℝ) (k : ℤ) : sin (θ + 2 * π * k) = sin θ := by
  rw [mul_comm]
  exact sin_add_int_mul_two_pi θ k

end Coral
