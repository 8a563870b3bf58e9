import Verif.Model.FloatsX
import Verif.Props.FloatsO
import Verif.Proofs.Eckert
import Verif.Spec.Eckert

/-!
# The Eckert IV projection on floats: the loop ends, everywhere (C192)

Newton's iteration approaches the solution from one side. With rounding it may pass it by less than 10⁻⁷, but then the next change is too small to go on. Near the poles the
derivative goes to zero, but each change is at most 6/7 of the distance from the pole.
-/
namespace Coral
namespace Flt
namespace Eckert

open Proj (EckertIV.G EckertIV.C EckertIV.CX EckertIV.CY)

/-- The derivative of the left side of the equation. -/
noncomputable def slope (u : ℝ) : ℝ := 2 * Real.cos u * (1 + Real.cos u)

/-- The exact change. -/
noncomputable def change (σ u : ℝ) : ℝ := (EckertIV.C * σ - EckertIV.G u) / slope u

theorem slope_large {u d : ℝ} (h0 : 0 ≤ u) (hd0 : 0 ≤ d) (hd : d ≤ Real.pi / 2 - u) : 126 / 100 * d ≤ slope u := by
  have hp := Real.pi_lt_d2
  have hp0 := Real.pi_pos
  have a := Real.mul_le_sin (x := Real.pi / 2 - u) (by linarith) (by linarith)
  rw [Real.sin_pi_div_two_sub] at a
  have b : 63 / 100 ≤ 2 / Real.pi := by
    rw [le_div_iff₀ hp0]
    linarith
  have c0 : 63 / 100 * d ≤ Real.cos u := by nlinarith
  have c1 := Real.cos_le_one u
  have : 0 ≤ Real.cos u := by linarith
  rw [slope]
  nlinarith

theorem slope_le (u : ℝ) (h : 0 ≤ Real.cos u) : slope u ≤ 4 := by
  have c1 := Real.cos_le_one u
  rw [slope]
  nlinarith

/-- A change is at most 6/7 of the distance from the pole. -/
theorem short {u : ℝ} (h0 : 0 ≤ u) (h1 : u < Real.pi / 2) : EckertIV.C - EckertIV.G u ≤ 6 / 7 * (slope u * (Real.pi / 2 - u)) := by
  have hp := Real.pi_pos
  obtain ⟨v, hv⟩ : ∃ v, v = (Real.pi / 2 - u) / 2 := ⟨_, rfl⟩
  have a := Proj.EckertIV.G_tangent h0 (show u < Real.pi / 2 - v by linarith) (by linarith)
  have b := Proj.EckertIV.G_tangent (θ := Real.pi / 2 - v) (by linarith) (show Real.pi / 2 - v < Real.pi / 2 by linarith) le_rfl
  rw [Proj.EckertIV.G_half_pi] at b
  have cu : Real.cos u = 2 * Real.sin v * Real.cos v := by
    rw [← Real.sin_two_mul, ← Real.sin_pi_div_two_sub]
    congr 1
    linarith
  have cm : Real.cos (Real.pi / 2 - v) = Real.sin v := Real.cos_pi_div_two_sub v
  rw [cm] at b
  have s0 : 0 ≤ Real.sin v := Real.sin_nonneg_of_nonneg_of_le_pi (by linarith) (by linarith)
  have c7 : 7 / 10 ≤ Real.cos v := by
    have : Real.cos (Real.pi / 4) ≤ Real.cos v := Real.cos_le_cos_of_nonneg_of_le_pi (by linarith) (by linarith) (by linarith)
    rw [Real.cos_pi_div_four] at this
    have r : 14 / 10 ≤ √(2 : ℝ) := Real.le_sqrt_of_sq_le (by norm_num)
    linarith
  have ratio : Real.sin v ≤ 5 / 7 * Real.cos u := by
    rw [cu]
    nlinarith
  have half : 2 * Real.sin v * (1 + Real.sin v) ≤ 5 / 7 * slope u := by
    rw [slope]
    have : Real.sin v ≤ Real.cos u := by
      have : 0 ≤ Real.cos u := by linarith
      linarith
    nlinarith
  have e1 : Real.pi / 2 - (Real.pi / 2 - v) = v := by ring
  have e2 : Real.pi / 2 - v - u = v := by linarith
  have e3 : Real.pi / 2 - u = 2 * v := by linarith
  rw [e1] at b
  rw [e2] at a
  rw [e3]
  have hv0 : 0 ≤ v := by linarith
  have k := mul_le_mul_of_nonneg_right half hv0
  have a' : EckertIV.G (Real.pi / 2 - v) < EckertIV.G u + slope u * v := a
  linarith

/-- Below the solution the change leads towards it, not farther. -/
theorem change_below {σ t u : ℝ} (ht : t ≤ Real.pi / 2) (hG : EckertIV.G t = EckertIV.C * σ) (h0 : 0 ≤ u) (h1 : u < Real.pi / 2) (hut : u ≤ t) :
    0 ≤ change σ u ∧ change σ u ≤ t - u ∧ change σ u ≤ 6 / 7 * (Real.pi / 2 - u) := by
  have hp := Real.pi_pos
  have s0 : 0 < slope u := by
    have := slope_large h0 (by linarith : (0 : ℝ) ≤ Real.pi / 2 - u) le_rfl
    linarith
  have gap : 0 ≤ EckertIV.C * σ - EckertIV.G u := by
    rw [← hG, sub_nonneg]
    exact Proj.EckertIV.G_mono.monotoneOn ⟨by linarith, h1.le⟩ ⟨by linarith, ht⟩ hut
  refine ⟨div_nonneg gap s0.le, ?_, ?_⟩
  · rw [change, div_le_iff₀ s0]
    rcases hut.eq_or_lt with rfl | lt
    · rw [hG, sub_self, sub_self, zero_mul]
    · have := Proj.EckertIV.G_tangent h0 lt ht
      rw [hG] at this
      have e : 2 * Real.cos u * (1 + Real.cos u) = slope u := rfl
      rw [e] at this
      linarith
  · rw [change, div_le_iff₀ s0]
    have a := short h0 h1
    have b : EckertIV.G t ≤ EckertIV.C := by
      rw [← Proj.EckertIV.G_half_pi]
      exact Proj.EckertIV.G_mono.monotoneOn ⟨by linarith, ht⟩ ⟨by linarith, le_rfl⟩ ht
    rw [hG] at b
    linarith

/-- A little above the solution the change is very small. -/
theorem change_above {σ t u : ℝ} (ht0 : 0 ≤ t) (hG : EckertIV.G t = EckertIV.C * σ) (hd : 1 / 10 ^ 7 ≤ Real.pi / 2 - u) (hut : t < u) (hu : u ≤ t + 3 / 10 ^ 8) :
    -(1 / 10 ^ 7) ≤ change σ u ∧ change σ u ≤ 0 := by
  have hp := Real.pi_pos
  have h0 : 0 ≤ u := by linarith
  have s1 := slope_large h0 (by norm_num) hd
  have s0 : 0 < slope u := by
    norm_num at s1 ⊢
    linarith
  have up : EckertIV.G t ≤ EckertIV.G u := Proj.EckertIV.G_mono.monotoneOn ⟨by linarith, by linarith⟩ ⟨by linarith, by linarith⟩ hut.le
  have tan := Proj.EckertIV.G_tangent ht0 hut (by linarith)
  have cu : 63 / 10 ^ 9 ≤ Real.cos u := by
    have a := Real.mul_le_sin (x := Real.pi / 2 - u) (by linarith) (by linarith)
    rw [Real.sin_pi_div_two_sub] at a
    have b : 63 / 100 ≤ 2 / Real.pi := by
      rw [le_div_iff₀ hp]
      have := Real.pi_lt_d2
      linarith
    have : 63 / 100 * (1 / 10 ^ 7) ≤ 2 / Real.pi * (Real.pi / 2 - u) := mul_le_mul b hd (by norm_num) (by positivity)
    norm_num at this a ⊢
    linarith
  have lip := Real.abs_cos_sub_cos_le t u
  rw [abs_of_nonpos (by linarith : t - u ≤ 0)] at lip
  have ct : Real.cos t ≤ 3 / 2 * Real.cos u := by
    have := (abs_le.mp lip).2
    norm_num at hu cu ⊢
    linarith
  have ct0 : 0 ≤ Real.cos t := Real.cos_nonneg_of_neg_pi_div_two_le_of_le (by linarith) (by linarith)
  have st : 2 * Real.cos t * (1 + Real.cos t) ≤ 9 / 4 * slope u := by
    have : 1 + Real.cos t ≤ 3 / 2 * (1 + Real.cos u) := by linarith
    have := mul_le_mul ct this (by linarith) (by linarith)
    rw [slope]
    linarith
  constructor
  · rw [change, le_div_iff₀ s0, ← hG]
    have k : 2 * Real.cos t * (1 + Real.cos t) * (u - t) ≤ 9 / 4 * slope u * (3 / 10 ^ 8) :=
      mul_le_mul st (by linarith) (by linarith) (by linarith)
    norm_num at k ⊢
    linarith
  · rw [change]
    exact div_nonpos_of_nonpos_of_nonneg (by rw [← hG]; linarith) s0.le

/-! ### One round on floats -/

theorem c_err : |(c : ℝ) - EckertIV.C| ≤ 2 * w := by
  have e : c = 2 + piD / 2 := by decide +kernel
  have p := piD_err
  have hw := w_pos
  rw [e, EckertIV.C]
  push_cast
  rw [show (2 : ℝ) + piD / 2 - (2 + Real.pi / 2) = (piD - Real.pi) / 2 by ring, abs_div, abs_of_pos (by norm_num : (0 : ℝ) < 2)]
  linarith

theorem tol_bounds : 999 / 10 ^ 9 ≤ tol ∧ tol ≤ 1001 / 10 ^ 9 := by decide +kernel

theorem flip {ε x : ℝ} (hε : ε = 1 ∨ ε = -1) : |ε * x| = |x| := by
  rcases hε with rfl | rfl
  · rw [one_mul]
  · rw [neg_one_mul, abs_neg]

theorem flip_cos {ε x : ℝ} (hε : ε = 1 ∨ ε = -1) : Real.cos (ε * x) = Real.cos x := by
  rcases hε with rfl | rfl
  · rw [one_mul]
  · rw [neg_one_mul, Real.cos_neg]

theorem flip_sin {ε x : ℝ} (hε : ε = 1 ∨ ε = -1) : Real.sin (ε * x) = ε * Real.sin x := by
  rcases hε with rfl | rfl
  · rw [one_mul, one_mul]
  · rw [neg_one_mul, neg_one_mul, Real.sin_neg]

/-- The numerator is off by at most 62 units, the denominator by at most 18. -/
theorem parts_err {m : Libm} (hm : m.Rounds) {T sl : ℚ} {S : ℝ} (hT : |(T : ℝ)| ≤ 2) (hS : |S| ≤ 1) (hs : |(sl : ℝ) - S| ≤ 10 * w) :
    |(fl (fl (fl (T + fl (m.sin T * m.cos T)) + fl (2 * m.sin T)) - fl (c * sl)) : ℝ) - (EckertIV.G T - EckertIV.C * S)| ≤ 62 * w ∧
    |(fl (fl (2 * m.cos T) * fl (1 + m.cos T)) : ℝ) - slope T| ≤ 18 * w := by
  have hw := w_pos
  have hle := w_tiny
  have hp := Real.pi_lt_d2
  obtain ⟨s1, s2⟩ := sin_err hm (x := T) (X := T) (e := 0) (by simp)
  obtain ⟨c1, c2⟩ := cos_err hm (x := T) (X := T) (e := 0) (by simp)
  have S1 := Real.abs_sin_le_one (T : ℝ)
  have C1 := Real.abs_cos_le_one (T : ℝ)
  constructor
  · obtain ⟨p1, -⟩ := mul_err s2 c2 S1 s1 c1
    have a1 : |((T + fl (m.sin T * m.cos T) : ℚ) : ℝ) - (T + Real.sin T * Real.cos T)| ≤ 3 * w := by
      push_cast
      rw [add_sub_add_left_eq_sub]
      linarith
    have P : |Real.sin T * Real.cos T| ≤ 1 := by
      rw [abs_mul]
      exact mul_le_one₀ S1 (abs_nonneg _) C1
    have b1 : |(T : ℝ) + Real.sin T * Real.cos T| ≤ 3 := (abs_add_le _ _).trans (by linarith)
    have a2 := fl_step a1 b1 (by linarith)
    have d1 : |((2 * m.sin T : ℚ) : ℝ) - 2 * Real.sin T| ≤ 2 * w := by
      push_cast
      rw [← mul_sub, abs_mul, abs_of_pos (by norm_num : (0 : ℝ) < 2)]
      linarith
    have D1 : |2 * Real.sin (T : ℝ)| ≤ 2 := by
      rw [abs_mul, abs_of_pos (by norm_num : (0 : ℝ) < 2)]
      linarith
    have d2 := fl_step d1 D1 (by linarith)
    have e1 : |((fl (T + fl (m.sin T * m.cos T)) + fl (2 * m.sin T) : ℚ) : ℝ) - EckertIV.G T| ≤ 10 * w := by
      push_cast
      rw [EckertIV.G, show (fl (T + fl (m.sin T * m.cos T)) : ℝ) + fl (2 * m.sin T) - (T + Real.sin T * Real.cos T + 2 * Real.sin T) =
        (fl (T + fl (m.sin T * m.cos T)) - (T + Real.sin T * Real.cos T)) + (fl (2 * m.sin T) - 2 * Real.sin T) by ring]
      exact (abs_add_le _ _).trans (by linarith)
    have G5 : |EckertIV.G T| ≤ 5 := by
      rw [EckertIV.G]
      exact (abs_add_le _ _).trans (by linarith)
    have e2 := fl_step e1 G5 (by linarith)
    have C4 : |EckertIV.C| ≤ 36 / 10 := by
      rw [abs_of_pos Proj.EckertIV.C_pos, EckertIV.C]
      linarith
    have cS : |((c * sl : ℚ) : ℝ) - EckertIV.C * S| ≤ 39 * w := by
      push_cast
      rw [show (c : ℝ) * sl - EckertIV.C * S = (c - EckertIV.C) * sl + EckertIV.C * (sl - S) by ring]
      have sl1 : |(sl : ℝ)| ≤ 11 / 10 := by
        have := abs_sub_abs_le_abs_sub (sl : ℝ) S
        linarith
      have k1 : |((c : ℝ) - EckertIV.C) * sl| ≤ 2 * w * (11 / 10) := by
        rw [abs_mul]
        exact mul_le_mul c_err sl1 (abs_nonneg _) (by linarith)
      have k2 : |EckertIV.C * ((sl : ℝ) - S)| ≤ 36 / 10 * (10 * w) := by
        rw [abs_mul]
        exact mul_le_mul C4 hs (abs_nonneg _) (by norm_num)
      exact (abs_add_le _ _).trans (by linarith)
    have CS : |EckertIV.C * S| ≤ 4 := by
      rw [abs_mul]
      nlinarith [abs_nonneg S]
    have f := fl_step cS CS (by linarith)
    have g : |((fl (fl (T + fl (m.sin T * m.cos T)) + fl (2 * m.sin T)) - fl (c * sl) : ℚ) : ℝ) - (EckertIV.G T - EckertIV.C * S)| ≤ 56 * w := by
      push_cast
      rw [sub_sub_sub_comm]
      exact (abs_sub _ _).trans (by linarith)
    have := fl_step g (B := 9) ((abs_sub _ _).trans (by linarith)) (by linarith)
    linarith
  · have d1 : |((2 * m.cos T : ℚ) : ℝ) - 2 * Real.cos T| ≤ 2 * w := by
      push_cast
      rw [← mul_sub, abs_mul, abs_of_pos (by norm_num : (0 : ℝ) < 2)]
      linarith
    have D1 : |2 * Real.cos (T : ℝ)| ≤ 2 := by
      rw [abs_mul, abs_of_pos (by norm_num : (0 : ℝ) < 2)]
      linarith
    have d2 := fl_step d1 D1 (by linarith)
    have e1 : |((1 + m.cos T : ℚ) : ℝ) - (1 + Real.cos T)| ≤ w := by
      push_cast
      rw [add_sub_add_left_eq_sub]
      linarith
    have E1 : |1 + Real.cos (T : ℝ)| ≤ 2 := by
      have := abs_add_le 1 (Real.cos (T : ℝ))
      rw [abs_one] at this
      linarith
    have e2 := fl_step e1 E1 (by linarith)
    have E2 : |(fl (1 + m.cos T) : ℝ)| ≤ 21 / 10 := by
      have := abs_sub_abs_le_abs_sub (fl (1 + m.cos T) : ℝ) (1 + Real.cos T)
      linarith
    have g : |((fl (2 * m.cos T) * fl (1 + m.cos T) : ℚ) : ℝ) - slope T| ≤ 145 / 10 * w := by
      push_cast
      rw [slope, show (fl (2 * m.cos T) : ℝ) * fl (1 + m.cos T) - 2 * Real.cos T * (1 + Real.cos T) =
        (fl (2 * m.cos T) - 2 * Real.cos T) * fl (1 + m.cos T) + 2 * Real.cos T * (fl (1 + m.cos T) - (1 + Real.cos T)) by ring]
      have k1 : |((fl (2 * m.cos T) : ℝ) - 2 * Real.cos T) * fl (1 + m.cos T)| ≤ 4 * w * (21 / 10) := by
        rw [abs_mul]
        exact mul_le_mul (by linarith) E2 (abs_nonneg _) (by linarith)
      have k2 : |2 * Real.cos (T : ℝ) * ((fl (1 + m.cos T) : ℝ) - (1 + Real.cos T))| ≤ 2 * (3 * w) := by
        rw [abs_mul]
        exact mul_le_mul D1 (by linarith) (abs_nonneg _) (by norm_num)
      exact (abs_add_le _ _).trans (by linarith)
    have S4 : |slope (T : ℝ)| ≤ 4 := by
      rw [slope, abs_mul]
      nlinarith [abs_nonneg (2 * Real.cos (T : ℝ)), abs_nonneg (1 + Real.cos (T : ℝ))]
    have := fl_step g S4 (by linarith)
    linarith

theorem G_flip {ε u : ℝ} (hε : ε = 1 ∨ ε = -1) : EckertIV.G (ε * u) = ε * EckertIV.G u := by
  rcases hε with rfl | rfl
  · rw [one_mul, one_mul]
  · rw [neg_one_mul, neg_one_mul, Proj.EckertIV.G_neg]

theorem slope_flip {ε u : ℝ} (hε : ε = 1 ∨ ε = -1) : slope (ε * u) = slope u := by rw [slope, slope, flip_cos hε]

/-- One round. -/
theorem round_err {m : Libm} (hm : m.Rounds) {ε σ u : ℝ} {sl : ℚ} (s : State) (hε : ε = 1 ∨ ε = -1) (hu : s.theta = ε * u) (hu2 : |u| ≤ 2) (hσ : |σ| ≤ 1)
    (hs : |(sl : ℝ) - ε * σ| ≤ 10 * w) (hsl : 1 / 10 ^ 7 ≤ slope u) (hs4 : slope u ≤ 4) (hch : |change σ u| ≤ 2) :
    ∃ δ, body m sl s = .ok { theta := fl (s.theta + δ), costheta := m.cos s.theta, sintheta := m.sin s.theta, delta := δ } ∧
      |(δ : ℝ) - ε * change σ u| * slope u ≤ 110 * w := by
  have hw := w_pos
  have hle := w_tiny
  obtain ⟨n, d⟩ := parts_err hm (T := s.theta) (sl := sl) (S := ε * σ) (by rw [hu, flip hε]; exact hu2) (by rw [flip hε]; exact hσ) hs
  obtain ⟨N, hN⟩ : ∃ N, N = fl (fl (fl (s.theta + fl (m.sin s.theta * m.cos s.theta)) + fl (2 * m.sin s.theta)) - fl (c * sl)) := ⟨_, rfl⟩
  obtain ⟨D, hD⟩ : ∃ D, D = fl (fl (2 * m.cos s.theta) * fl (1 + m.cos s.theta)) := ⟨_, rfl⟩
  rw [← hN, hu, G_flip hε] at n
  rw [← hD, hu, slope_flip hε] at d
  have ch : change σ u * slope u = EckertIV.C * σ - EckertIV.G u := by
    rw [change, div_mul_cancel₀]
    norm_num at hsl
    linarith
  generalize slope u = L at *
  generalize change σ u = h at *
  obtain ⟨d1, d2⟩ := abs_le.mp d
  have Dp : (0 : ℝ) < D := by
    norm_num at hsl hle
    linarith
  have Dq : L ≤ D * (1001 / 1000) := by
    norm_num at hsl hle
    linarith
  have D0 : D ≠ 0 := by
    intro e
    rw [e] at Dp
    norm_num at Dp
  have x : |((-N / D : ℚ) : ℝ) - ε * h| * D ≤ 98 * w := by
    push_cast
    rw [← abs_of_pos Dp, ← abs_mul, abs_of_pos Dp, sub_mul, div_mul_cancel₀ _ Dp.ne']
    rw [show -(N : ℝ) - ε * h * D = -(N - (ε * EckertIV.G u - EckertIV.C * (ε * σ))) - ε * (h * (D - L)) by linear_combination (-ε) * ch]
    refine (abs_sub _ _).trans ?_
    rw [abs_neg, flip hε, abs_mul]
    have := mul_le_mul hch d (abs_nonneg _) (by norm_num : (0 : ℝ) ≤ 2)
    linarith
  have Lp : 0 < L := by
    norm_num at hsl
    linarith
  have x2 : |((-N / D : ℚ) : ℝ) - ε * h| * L ≤ 99 * w := by
    have := mul_le_mul_of_nonneg_left Dq (abs_nonneg (((-N / D : ℚ) : ℝ) - ε * h))
    linarith
  have x3 : |((-N / D : ℚ) : ℝ) - ε * h| ≤ 99 * w / L := by rwa [le_div_iff₀ Lp]
  have small : 99 * w / L ≤ 1 := by
    rw [div_le_one Lp]
    norm_num at hsl hle
    linarith
  have f := fl_step x3 (B := 2) (by rw [flip hε]; exact hch) small
  refine ⟨fl (-N / D), ?_, ?_⟩
  · rw [body]
    change (div (-fl (fl (fl (s.theta + fl (m.sin s.theta * m.cos s.theta)) + fl (2 * m.sin s.theta)) - fl (c * sl)))
      (fl (fl (2 * m.cos s.theta) * fl (1 + m.cos s.theta))) >>= _) = _
    rw [← hN, ← hD, div_ok D0]
    rfl
  · have := mul_le_mul_of_nonneg_right f Lp.le
    rw [add_mul, div_mul_cancel₀ _ Lp.ne'] at this
    nlinarith

/-! ### The loop -/

/-- From a place at most a little beyond the solution the loop ends, near the solution. -/
theorem loop_near {m : Libm} (hm : m.Rounds) {ε σ t : ℝ} {sl : ℚ} (hε : ε = 1 ∨ ε = -1) (hσ : |σ| ≤ 1) (hs : |(sl : ℝ) - ε * σ| ≤ 10 * w) (ht0 : 0 ≤ t)
    (ht : t ≤ Real.pi / 2) (hG : EckertIV.G t = EckertIV.C * σ) (n : ℕ) :
    ∀ (s : State) (u : ℝ), s.theta = ε * u → 0 ≤ u → u ≤ t + 3 / 10 ^ 8 → 1 / 10 ^ 7 ≤ Real.pi / 2 - u → |s.delta| > tol → Real.pi / 2 - u ≤ n * (9 / 10 ^ 7) →
      ∃ s' v, Proj.PyWhile (fun s : State => |s.delta| > tol) (body m sl) s (.ok s') ∧ s'.costheta = m.cos v ∧ s'.sintheta = m.sin v ∧
        ∃ u : ℝ, (v : ℝ) = ε * u ∧ 0 ≤ u ∧ 1 / 10 ^ 7 ≤ Real.pi / 2 - u ∧ |EckertIV.C * σ - EckertIV.G u| ≤ 5 / 10 ^ 6 := by
  have hw := w_pos
  have hle : w ≤ 23 / 10 ^ 17 := by
    rw [w_eq]
    norm_num
  have hp := Real.pi_lt_d2
  obtain ⟨tl, tu⟩ := tol_bounds
  have tl' : (999 : ℝ) / 10 ^ 9 ≤ tol := by
    have := (Rat.cast_le (K := ℝ)).mpr tl
    push_cast at this
    exact this
  have tu' : (tol : ℝ) ≤ 1001 / 10 ^ 9 := by
    have := (Rat.cast_le (K := ℝ)).mpr tu
    push_cast at this
    exact this
  induction n with
  | zero =>
    intro s u _ _ _ h _ h'
    exfalso
    norm_num at h h'
    linarith
  | succ n ih =>
    intro s u hs' h0 hut hd hdel hn
    have hu1 : u < Real.pi / 2 := by
      norm_num at hd
      linarith
    have S1 := slope_large h0 (by norm_num) hd
    have S2 : 1 / 10 ^ 7 ≤ slope u := by
      norm_num at S1 ⊢
      linarith
    have Sp : 0 < slope u := by
      norm_num at S2
      linarith
    have S4 : slope u ≤ 4 := slope_le u (Real.cos_nonneg_of_neg_pi_div_two_le_of_le (by linarith) hu1.le)
    have bounds : -(1 / 10 ^ 7) ≤ change σ u ∧ change σ u ≤ 2 := by
      rcases le_or_gt u t with k | k
      · obtain ⟨a, -, b⟩ := change_below ht hG h0 hu1 k
        constructor
        · norm_num
          linarith
        · linarith
      · obtain ⟨a, b⟩ := change_above ht0 hG hd k hut
        exact ⟨a, by linarith⟩
    obtain ⟨δ, hb, he⟩ := round_err hm s hε hs' (abs_le.mpr ⟨by linarith, by linarith⟩) hσ hs S2 S4 (abs_le.mpr ⟨by
      norm_num at bounds
      linarith, bounds.2⟩)
    have e1 : |(δ : ℝ) - ε * change σ u| ≤ 21 / 10 ^ 8 := by
      have := mul_le_mul_of_nonneg_left S1 (abs_nonneg ((δ : ℝ) - ε * change σ u))
      norm_num at this hle ⊢
      linarith
    have e2 : |ε * δ - change σ u| = |(δ : ℝ) - ε * change σ u| := by
      rcases hε with rfl | rfl
      · rw [one_mul, one_mul]
      · rw [show (-1 : ℝ) * δ - change σ u = -(δ - -1 * change σ u) by ring, abs_neg]
    by_cases hlast : |δ| > tol
    · have hl : (tol : ℝ) < |ε * δ| := by
        rw [flip hε]
        exact_mod_cast hlast
      obtain ⟨a1, a2⟩ := abs_le.mp (e2.trans_le e1)
      have pos : (tol : ℝ) < ε * δ := by
        rcases lt_abs.mp hl with k | k
        · exact k
        · exfalso
          norm_num at bounds a1 tl'
          linarith
      have big : 78 / 10 ^ 8 ≤ change σ u := by
        norm_num at pos a2 tl' ⊢
        linarith
      have hlt : u ≤ t := by
        by_contra k
        obtain ⟨-, b⟩ := change_above ht0 hG hd (not_le.mp k) hut
        norm_num at big
        linarith
      obtain ⟨b0, b1, b2⟩ := change_below ht hG h0 hu1 hlt
      have far : 91 / 10 ^ 8 ≤ Real.pi / 2 - u := by
        norm_num at big ⊢
        linarith
      have S5 := slope_large h0 (by norm_num) far
      have e3 : |(δ : ℝ) - ε * change σ u| ≤ 23 / 10 ^ 9 := by
        have := mul_le_mul_of_nonneg_left S5 (abs_nonneg ((δ : ℝ) - ε * change σ u))
        norm_num at this hle ⊢
        linarith
      have th : |((s.theta + δ : ℚ) : ℝ) - ε * (u + change σ u)| ≤ 23 / 10 ^ 9 := by
        push_cast
        rw [hs', mul_add, add_sub_add_left_eq_sub]
        exact e3
      have th2 := fl_step th (B := 2) (by
        rw [flip hε, abs_of_nonneg (by linarith)]
        linarith) (by norm_num)
      obtain ⟨u', hu'⟩ : ∃ u' : ℝ, u' = ε * (fl (s.theta + δ) : ℝ) := ⟨_, rfl⟩
      have back : (fl (s.theta + δ) : ℝ) = ε * u' := by
        rw [hu']
        rcases hε with rfl | rfl <;> ring
      have near : |u' - (u + change σ u)| ≤ 24 / 10 ^ 9 := by
        rw [back, ← mul_sub, flip hε] at th2
        norm_num at th2 hle ⊢
        linarith
      obtain ⟨n1, n2⟩ := abs_le.mp near
      obtain ⟨s', v, hw', rest⟩ := ih { theta := fl (s.theta + δ), costheta := m.cos s.theta, sintheta := m.sin s.theta, delta := δ } u' back
        (by norm_num at n1 big; linarith) (by norm_num at n2 ⊢; linarith) (by norm_num at n2 far ⊢; linarith) hlast
        (by
          have e4 := (abs_le.mp (e2.trans_le e3)).2
          push_cast at hn
          norm_num at hn n1 pos e4 tl' ⊢
          linarith)
      exact ⟨s', v, .step hdel hb hw', rest⟩
    · refine ⟨_, s.theta, .step hdel hb (.done hlast), rfl, rfl, u, hs', h0, hd, ?_⟩
      have hl : |ε * (δ : ℝ)| ≤ tol := by
        rw [flip hε]
        have := not_lt.mp hlast
        exact_mod_cast this
      have c1 : |change σ u| ≤ 122 / 10 ^ 8 := by
        have := abs_sub_abs_le_abs_sub (change σ u) (ε * δ)
        rw [abs_sub_comm, e2] at this
        norm_num at this e1 tu' hl ⊢
        linarith
      have ch : EckertIV.C * σ - EckertIV.G u = change σ u * slope u := by rw [change, div_mul_cancel₀ _ Sp.ne']
      rw [ch, abs_mul, abs_of_pos Sp]
      have := mul_le_mul c1 S4 Sp.le (by norm_num)
      norm_num at this ⊢
      linarith

/-- The loop ends for every latitude. -/
theorem loop_float {m : Libm} (hm : m.Rounds) {lat : ℚ} (h : |lat| ≤ 90) :
    ∃ s v, Loop m (radians lat) (.ok s) ∧ s.costheta = m.cos v ∧ s.sintheta = m.sin v ∧ -(Real.pi / 2) ≤ v ∧ (v : ℝ) ≤ Real.pi / 2 ∧
      |EckertIV.C * Real.sin (rad lat) - EckertIV.G v| ≤ 5 / 10 ^ 6 := by
  have hw := w_pos
  have hle := w_tiny
  have hp := Real.pi_gt_d2
  have h' := abs_real h
  push_cast at h'
  have R := radians_err (x := lat) (by linarith)
  obtain ⟨s, -⟩ := sin_err hm R
  obtain ⟨φ, hφ⟩ : ∃ φ, φ = |rad (lat : ℝ)| := ⟨_, rfl⟩
  obtain ⟨ε, hε, e1, e2⟩ : ∃ ε : ℝ, (ε = 1 ∨ ε = -1) ∧ rad lat = ε * φ ∧ 0 ≤ ε * (fl (radians lat / 2) : ℝ) := by
    have hd : (0 : ℚ) ≤ degree := by decide +kernel
    rcases le_total 0 lat with k | k
    · have k' : (0 : ℝ) ≤ lat := by exact_mod_cast k
      refine ⟨1, .inl rfl, ?_, ?_⟩
      · rw [hφ, one_mul, abs_of_nonneg]
        rw [rad]
        positivity
      · rw [one_mul]
        have : 0 ≤ fl (radians lat / 2) := fl_nonneg (div_nonneg (fl_nonneg (mul_nonneg k hd)) (by norm_num))
        exact_mod_cast this
    · have k' : (lat : ℝ) ≤ 0 := by exact_mod_cast k
      refine ⟨-1, .inr rfl, ?_, ?_⟩
      · rw [hφ, abs_of_nonpos]
        · ring
        · rw [rad]
          have := mul_nonpos_of_nonpos_of_nonneg k' Real.pi_pos.le
          linarith
      · have : fl (radians lat / 2) ≤ 0 := fl_le double_zero (div_nonpos_of_nonpos_of_nonneg (fl_le double_zero (mul_nonpos_of_nonpos_of_nonneg k hd)) (by norm_num))
        have : (fl (radians lat / 2) : ℝ) ≤ 0 := by exact_mod_cast this
        linarith
  have p0 : 0 ≤ φ := hφ ▸ abs_nonneg _
  have p1 : φ ≤ Real.pi / 2 := by
    rw [hφ, rad, abs_div, abs_mul, abs_of_pos Real.pi_pos, abs_of_pos (by norm_num : (0 : ℝ) < 180), div_le_iff₀ (by norm_num)]
    have := mul_le_mul_of_nonneg_right h' Real.pi_pos.le
    linarith
  obtain ⟨u, hu⟩ : ∃ u : ℝ, u = ε * (fl (radians lat / 2) : ℝ) := ⟨_, rfl⟩
  have back : (fl (radians lat / 2) : ℝ) = ε * u := by
    rw [hu]
    rcases hε with rfl | rfl <;> ring
  rw [← hu] at e2
  have st : |u - φ / 2| ≤ 6 * w := by
    have a : |((radians lat / 2 : ℚ) : ℝ) - ε * (φ / 2)| ≤ 45 / 10 * w := by
      push_cast
      rw [e1] at R
      rw [show (radians lat : ℝ) / 2 - ε * (φ / 2) = (radians lat - ε * φ) / 2 by ring, abs_div, abs_of_pos (by norm_num : (0 : ℝ) < 2)]
      linarith
    have := fl_step a (B := 1) (by
      rw [flip hε, abs_of_nonneg (by linarith)]
      have := Real.pi_lt_d2
      linarith) (by linarith)
    rw [back, ← mul_sub, flip hε] at this
    linarith
  obtain ⟨st1, st2⟩ := abs_le.mp st
  have sn : Real.sin (rad lat) = ε * Real.sin φ := by rw [e1, flip_sin hε]
  have sg : |Real.sin φ| ≤ 1 := Real.abs_sin_le_one _
  have s0 : 0 ≤ Real.sin φ := Real.sin_nonneg_of_nonneg_of_le_pi p0 (by linarith)
  obtain ⟨t, ht1, ht2, hG⟩ := Proj.EckertIV.G_solve (σ := Real.sin φ) (Real.neg_one_le_sin _) (Real.sin_le_one _)
  have hst : φ / 2 ≤ t := by
    have := Proj.EckertIV.start_le p0 p1
    rw [← hG] at this
    exact (Proj.EckertIV.G_mono.le_iff_le ⟨by linarith, by linarith⟩ ⟨ht1, ht2⟩).mp this
  obtain ⟨n, hn⟩ := exists_nat_gt ((Real.pi / 2 - u) / (9 / 10 ^ 7))
  rw [div_lt_iff₀ (by norm_num)] at hn
  rw [sn] at s
  obtain ⟨s', v, hl, hc, hs', u', e, u0, u1, g⟩ := loop_near hm hε sg (by linarith : |(m.sin (radians lat) : ℝ) - ε * Real.sin φ| ≤ 10 * w) (by linarith) ht2 hG n
    { theta := fl (radians lat / 2), costheta := 0, sintheta := 0, delta := 1 } u back e2 (by norm_num at hle ⊢; linarith) (by norm_num at hle ⊢; linarith)
    (by
      have := tol_bounds.2
      rw [abs_one]
      refine lt_of_le_of_lt this ?_
      norm_num) hn.le
  norm_num at u1
  refine ⟨s', v, hl, hc, hs', ?_, ?_, ?_⟩
  · rw [e]
    rcases hε with rfl | rfl <;> linarith
  · rw [e]
    rcases hε with rfl | rfl <;> linarith
  · rw [sn, e, G_flip hε, show EckertIV.C * (ε * Real.sin φ) - ε * EckertIV.G u' = ε * (EckertIV.C * Real.sin φ - EckertIV.G u') by ring, flip hε]
    exact g

/-! ### The factors -/

theorem sqrt_near {a A s : ℝ} (ha : 0 ≤ a) (hs : 0 < s) (hA : s ^ 2 ≤ A) : |√a - √A| ≤ |a - A| / s := by
  have h1 : s ≤ √A := Real.le_sqrt_of_sq_le hA
  have h2 := Real.sqrt_nonneg a
  rw [le_div_iff₀ hs]
  have e : a - A = (√a - √A) * (√a + √A) := by
    have := Real.sq_sqrt ha
    have := Real.sq_sqrt ((sq_nonneg s).trans hA)
    linear_combination -(Real.sq_sqrt ha) + Real.sq_sqrt ((sq_nonneg s).trans hA)
  rw [e, abs_mul, abs_of_nonneg (by linarith : 0 ≤ √a + √A)]
  exact mul_le_mul_of_nonneg_left (by linarith) (abs_nonneg _)

theorem cx_err {m : Libm} (hm : m.Rounds) : |(cx m : ℝ) - EckertIV.CX| ≤ 3 * w ∧ |EckertIV.CX| ≤ 1 / 2 := by
  have hw := w_pos
  have hle := w_tiny
  have h1 := Real.pi_gt_d2
  have h2 := Real.pi_lt_d2
  have P := piD_err
  obtain ⟨P1, P2⟩ := abs_le.mp P
  have a : |(fl (4 * piD) : ℝ) - 4 * Real.pi| ≤ 12 * w := by
    have := fl_step (x := 4 * piD) (X := 4 * Real.pi) (e := 4 * w) (B := 13) (by
      push_cast
      rw [← mul_sub, abs_mul, abs_of_pos (by norm_num : (0 : ℝ) < 4)]
      linarith) (by rw [abs_of_pos (by linarith)]; linarith) (by linarith)
    linarith
  have b : |(fl (piD * piD) : ℝ) - Real.pi * Real.pi| ≤ 13 * w := by
    have := fl_step (x := piD * piD) (X := Real.pi * Real.pi) (e := 7 * w) (B := 10) (by
      push_cast
      rw [show (piD : ℝ) * piD - Real.pi * Real.pi = (piD - Real.pi) * (piD + Real.pi) by ring, abs_mul, abs_of_pos (by linarith : (0 : ℝ) < piD + Real.pi)]
      have := mul_le_mul P (by linarith : (piD : ℝ) + Real.pi ≤ 7) (by linarith) hw.le
      linarith) (by rw [abs_of_pos (by positivity)]; nlinarith) (by linarith)
    linarith
  obtain ⟨A, hA⟩ : ∃ A, A = 4 * Real.pi + Real.pi * Real.pi := ⟨_, rfl⟩
  have A1 : (22 : ℝ) ≤ A := by rw [hA]; nlinarith
  have A2 : A ≤ 23 := by rw [hA]; nlinarith
  have d : |(fl (fl (4 * piD) + fl (piD * piD)) : ℝ) - A| ≤ 38 * w := by
    have := fl_step (x := fl (4 * piD) + fl (piD * piD)) (X := A) (e := 25 * w) (B := 23) (by
      push_cast
      rw [hA, show ((fl (4 * piD) : ℚ) : ℝ) + fl (piD * piD) - (4 * Real.pi + Real.pi * Real.pi) = (fl (4 * piD) - 4 * Real.pi) + (fl (piD * piD) - Real.pi * Real.pi) by ring]
      refine (abs_add_le _ _).trans ?_
      linarith) (by rw [abs_of_pos (by linarith)]; exact A2) (by linarith)
    linarith
  obtain ⟨q, hq⟩ : ∃ q, q = fl (fl (4 * piD) + fl (piD * piD)) := ⟨_, rfl⟩
  rw [← hq] at d
  obtain ⟨d1, d2⟩ := abs_le.mp d
  have q0 : (0 : ℝ) ≤ q := by linarith
  have r1 : |√(q : ℝ) - √A| ≤ 10 * w := by
    have := sqrt_near (A := A) q0 (by norm_num : (0 : ℝ) < 4) (by linarith)
    have : |(q : ℝ) - A| / 4 ≤ 10 * w := by linarith
    linarith
  have S1 : (46 : ℝ) / 10 ≤ √A := Real.le_sqrt_of_sq_le (by norm_num; linarith)
  have S2 : √A ≤ 5 := Real.sqrt_le_iff.mpr ⟨by norm_num, by norm_num; linarith⟩
  have r2 := near_step ⟨(hm.sqrt q (by exact_mod_cast q0)).1, (hm.sqrt q (by exact_mod_cast q0)).2.2⟩ r1 (B := 5) (by rw [abs_of_nonneg (by linarith)]; exact S2) (by linarith)
  obtain ⟨z, hz⟩ : ∃ z, z = m.sqrt q := ⟨_, rfl⟩
  rw [← hz] at r2
  obtain ⟨z1, z2⟩ := abs_le.mp r2
  have e : EckertIV.CX = 2 / √A := by rw [EckertIV.CX, hA]
  have small : |2 / √A| ≤ 1 / 2 := by
    rw [abs_of_pos (by positivity), div_le_div_iff₀ (by linarith) (by norm_num)]
    linarith
  refine ⟨?_, by rw [e]; exact small⟩
  have quot : |((2 / z : ℚ) : ℝ) - 2 / √A| ≤ 17 / 10 * w := by
    push_cast
    have zp : (45 : ℝ) / 10 ≤ z := by linarith
    rw [show (2 : ℝ) / z - 2 / √A = 2 * (√A - z) / (z * √A) by field_simp, abs_div, abs_mul, abs_of_pos (by norm_num : (0 : ℝ) < 2),
      abs_of_pos (by nlinarith : 0 < (z : ℝ) * √A), div_le_iff₀ (by nlinarith), abs_sub_comm]
    have : (20 : ℝ) ≤ z * √A := by nlinarith
    nlinarith
  have := fl_step quot small (by linarith)
  rw [e, cx, ← hq, ← hz]
  linarith

theorem cy_err {m : Libm} (hm : m.Rounds) : |(cy m : ℝ) - EckertIV.CY| ≤ 12 * w ∧ |EckertIV.CY| ≤ 14 / 10 := by
  have hw := w_pos
  have hle := w_tiny
  have h1 := Real.pi_gt_d2
  have h2 := Real.pi_lt_d2
  have P := piD_err
  obtain ⟨P1, P2⟩ := abs_le.mp P
  have a : |(fl (4 + piD) : ℝ) - (4 + Real.pi)| ≤ 6 * w := by
    have := fl_step (x := 4 + piD) (X := 4 + Real.pi) (e := w) (B := 8) (by
      push_cast
      rw [add_sub_add_left_eq_sub]
      exact P) (by rw [abs_of_pos (by linarith)]; linarith) (by linarith)
    linarith
  obtain ⟨b, hb⟩ : ∃ b, b = fl (4 + piD) := ⟨_, rfl⟩
  rw [← hb] at a
  obtain ⟨a1, a2⟩ := abs_le.mp a
  obtain ⟨Q, hQ⟩ : ∃ Q, Q = Real.pi / (4 + Real.pi) := ⟨_, rfl⟩
  have hp4 : 0 < 4 + Real.pi := by linarith
  have Q1 : (43 : ℝ) / 100 ≤ Q := by rw [hQ, le_div_iff₀ hp4]; linarith
  have Q2 : Q ≤ 45 / 100 := by rw [hQ, div_le_iff₀ hp4]; linarith
  have quot : |((piD / b : ℚ) : ℝ) - Q| ≤ 6 / 10 * w := by
    push_cast
    have bp : (7 : ℝ) ≤ b := by linarith
    have e : Q * (4 + Real.pi) = Real.pi := by rw [hQ, div_mul_cancel₀ _ hp4.ne']
    rw [show (piD : ℝ) / b - Q = ((piD - Real.pi) - Q * (b - (4 + Real.pi))) / b by
      field_simp
      linear_combination -e, abs_div, abs_of_pos (by linarith : (0 : ℝ) < b), div_le_iff₀ (by linarith)]
    refine (abs_sub _ _).trans ?_
    rw [abs_mul, abs_of_pos (by linarith : 0 < Q)]
    have := mul_le_mul Q2 a (abs_nonneg _) (by norm_num : (0 : ℝ) ≤ 45 / 100)
    nlinarith
  have d := fl_step quot (B := 45 / 100) (by rw [abs_of_pos (by linarith)]; exact Q2) (by linarith)
  obtain ⟨q, hq⟩ : ∃ q, q = fl (piD / b) := ⟨_, rfl⟩
  rw [← hq] at d
  obtain ⟨d1, d2⟩ := abs_le.mp d
  have q0 : (0 : ℝ) ≤ q := by linarith
  have r1 : |√(q : ℝ) - √Q| ≤ 3 * w := by
    have := sqrt_near (A := Q) q0 (by norm_num : (0 : ℝ) < 65 / 100) (by norm_num; linarith)
    have : |(q : ℝ) - Q| / (65 / 100) ≤ 3 * w := by
      rw [div_le_iff₀ (by norm_num)]
      linarith
    linarith
  have S1 : (0 : ℝ) ≤ √Q := Real.sqrt_nonneg _
  have S2 : √Q ≤ 7 / 10 := Real.sqrt_le_iff.mpr ⟨by norm_num, by norm_num; linarith⟩
  have r2 := near_step ⟨(hm.sqrt q (by exact_mod_cast q0)).1, (hm.sqrt q (by exact_mod_cast q0)).2.2⟩ r1 (B := 7 / 10) (by rw [abs_of_nonneg S1]; exact S2) (by linarith)
  have e : EckertIV.CY = 2 * √Q := by rw [EckertIV.CY, hQ]
  have small : |2 * √Q| ≤ 14 / 10 := by
    rw [abs_of_nonneg (by linarith)]
    linarith
  refine ⟨?_, by rw [e]; exact small⟩
  have dbl : |((2 * m.sqrt q : ℚ) : ℝ) - 2 * √Q| ≤ 9 * w := by
    push_cast
    rw [← mul_sub, abs_mul, abs_of_pos (by norm_num : (0 : ℝ) < 2)]
    linarith
  have := fl_step dbl small (by linarith)
  rw [e, cy, ← hb, ← hq]
  linarith

/-- A product with a number that grows with `r`. -/
theorem prod_err {r x l : ℚ} {X L e f B D : ℝ} (hr : 1 ≤ r) (h1 : |(x : ℝ) - r * X| ≤ r * e) (h2 : |(l : ℝ) - L| ≤ f) (hX : |X| ≤ B) (hl : |(l : ℝ)| ≤ D)
    (he : e * D ≤ 1) (hB : 0 ≤ B) (he0 : 0 ≤ e) : |(fl (x * l) : ℝ) - r * (X * L)| ≤ r * (e * D + B * f + (B * D + 2) * (w / 2)) := by
  have hw := w_pos
  have hr' : (1 : ℝ) ≤ r := by exact_mod_cast hr
  have hr0 : (0 : ℝ) ≤ r := by linarith
  have a := fl_err_real (x * l)
  push_cast at a
  have x1 : |(x : ℝ)| ≤ r * (B + e) := by
    have := abs_sub_abs_le_abs_sub (x : ℝ) (r * X)
    rw [abs_mul (r : ℝ), abs_of_nonneg hr0] at this
    have := mul_le_mul_of_nonneg_left hX hr0
    linarith
  have x2 : |(x : ℝ) * l| ≤ r * (B * D + 1) := by
    rw [abs_mul]
    have := mul_le_mul x1 hl (abs_nonneg _) (by positivity)
    have := mul_le_mul_of_nonneg_left he hr0
    linarith
  have x3 : |(x : ℝ) * l - r * (X * L)| ≤ r * (e * D + B * f) := by
    rw [show (x : ℝ) * l - r * (X * L) = (x - r * X) * l + r * (X * (l - L)) by ring]
    refine (abs_add_le _ _).trans ?_
    rw [abs_mul, abs_mul (r : ℝ), abs_mul X, abs_of_nonneg hr0]
    have p := mul_le_mul h1 hl (abs_nonneg _) (mul_nonneg hr0 he0)
    have q := mul_le_mul_of_nonneg_left (mul_le_mul hX h2 (abs_nonneg _) hB) hr0
    linarith
  have b := abs_sub_le (fl (x * l) : ℝ) (x * l) (r * (X * L))
  have x4 := mul_le_mul_of_nonneg_right x2 (by linarith : 0 ≤ w / 2)
  have x5 : w / 1024 ≤ r * (w / 2) := by nlinarith
  nlinarith

/-- `1 + costheta` -/
theorem cos_plus {m : Libm} (hm : m.Rounds) (T : ℚ) : |(fl (1 + m.cos T) : ℝ) - (1 + Real.cos T)| ≤ 3 * w ∧ |(fl (1 + m.cos T) : ℝ)| ≤ 201 / 100 := by
  have hw := w_pos
  have hle := w_tiny
  have e1 := Real.neg_one_le_cos (T : ℝ)
  have e2 := Real.cos_le_one (T : ℝ)
  have c0 := (cos_err hm (x := T) (X := T) (e := 0) (by rw [sub_self, abs_zero])).1
  have c := fl_step (x := 1 + m.cos T) (X := 1 + Real.cos T) (e := w) (B := 2) (by
    push_cast
    rw [add_sub_add_left_eq_sub]
    linarith) (by
      rw [abs_of_nonneg (by linarith)]
      linarith) (by linarith)
  obtain ⟨f1, f2⟩ := abs_le.mp c
  refine ⟨by linarith, ?_⟩
  rw [abs_le]
  constructor <;> linarith

/-- The abscissa. -/
theorem abscissa_err {m : Libm} (hm : m.Rounds) {r v T : ℚ} {V : ℝ} (hr : 1 ≤ r) (hb : |v| ≤ piD) (hk : |(v : ℝ) - V| ≤ 76 * w) :
    |(fl (fl (fl (cx m * r) * v) * fl (1 + m.cos T)) : ℝ) - r * (EckertIV.CX * V * (1 + Real.cos T))| ≤ r * (128 * w) := by
  have hw := w_pos
  have hle := w_tiny
  have hr' : (1 : ℝ) ≤ r := by exact_mod_cast hr
  have hr0 : (0 : ℝ) ≤ r := by linarith
  obtain ⟨cx1, cx2⟩ := cx_err hm
  obtain ⟨c, c'⟩ := cos_plus hm T
  have hb' : |(v : ℝ)| ≤ 32 / 10 := by
    have := abs_real hb
    have := piD_real
    linarith
  have hV' : |V| ≤ 33 / 10 := by
    have := abs_sub_abs_le_abs_sub V (v : ℝ)
    rw [abs_sub_comm] at this
    linarith
  have a : |(fl (cx m * r) : ℝ) - r * EckertIV.CX| ≤ r * (5 * w) := by
    rw [mul_comm (cx m)]
    refine (scaled hr cx1 cx2 (by linarith)).trans (mul_le_mul_of_nonneg_left ?_ hr0)
    linarith
  have b : |(fl (fl (cx m * r) * v) : ℝ) - r * (EckertIV.CX * V)| ≤ r * (57 * w) := by
    refine (prod_err hr a hk cx2 hb' (by linarith) (by norm_num) (by linarith)).trans (mul_le_mul_of_nonneg_left ?_ hr0)
    linarith
  have B : |EckertIV.CX * V| ≤ 165 / 100 := by
    rw [abs_mul]
    have := mul_le_mul cx2 hV' (abs_nonneg _) (by norm_num : (0 : ℝ) ≤ 1 / 2)
    linarith
  have d := prod_err hr b c B c' (by linarith) (by norm_num) (by linarith)
  refine d.trans (mul_le_mul_of_nonneg_left ?_ hr0)
  linarith

/-- **C192**: `geo2rect` ends for every position, and it ends in one way. The result is, but for rounding, the image of a place on the same meridian whose latitude is off by
no more than the tolerance of the loop allows. -/
theorem C192_ends (m : Libm) (hm : m.Rounds) (lon0 r lon lat : ℚ) (l0 : |lon0| ≤ 360) (l1 : |lon| ≤ 360) (h : |lat| ≤ 90) (hr : 1 ≤ r) :
    ∃ x y, (∀ res, Geo2rect m (radians lon0) r lon lat res ↔ res = .ok (x, y)) ∧
      ∃ (φ X Y : ℝ) (k : ℤ), -(Real.pi / 2) ≤ φ ∧ φ ≤ Real.pi / 2 ∧ |Real.sin φ - Real.sin (rad lat)| ≤ 3 / 2 / 10 ^ 6 ∧
        |rad lon - rad lon0 + 2 * Real.pi * k| ≤ Real.pi + 2 ^ (-45 : ℤ) ∧ Spec.EckertImage r (rad lon - rad lon0 + 2 * Real.pi * k) φ X Y ∧
        |(x : ℝ) - X| ≤ r * 2 ^ (-45 : ℤ) ∧ |(y : ℝ) - Y| ≤ r * 2 ^ (-47 : ℤ) := by
  have hw := w_pos
  have hle := w_tiny
  have hp1 := Real.pi_gt_d2
  have hp2 := Real.pi_lt_d2
  have hr' : (1 : ℝ) ≤ r := by exact_mod_cast hr
  have hr0 : (0 : ℝ) ≤ r := by linarith
  have w45 : (2 : ℝ) ^ (-45 : ℤ) = 128 * w := by rw [w_eq]; norm_num
  have w47 : (2 : ℝ) ^ (-47 : ℤ) = 32 * w := by rw [w_eq]; norm_num
  obtain ⟨s, θ, hl, hc, hs, θ1, θ2, g⟩ := loop_float hm h
  obtain ⟨v, hv, hu, hb, k, hk⟩ := corangle_lon l0 l1
  obtain ⟨cx1, cx2⟩ := cx_err hm
  obtain ⟨cy1, cy2⟩ := cy_err hm
  refine ⟨fl (fl (fl (cx m * r) * v) * fl (1 + s.costheta)), fl (fl (cy m * r) * s.sintheta), ?_, Real.arcsin (EckertIV.G θ / EckertIV.C), EckertIV.CX * r * (rad lon - rad lon0 + 2 * Real.pi * k) * (1 + Real.cos θ),
    EckertIV.CY * r * Real.sin θ, k, Real.neg_pi_div_two_le_arcsin _, Real.arcsin_le_pi_div_two _, ?_, ?_, ?_, ?_, ?_⟩
  · intro res
    constructor
    · intro h
      cases h with
      | ok a b =>
        have e := hl.det a
        rw [Except.ok.injEq] at e
        rw [hu _ b, e]
      | raise a => cases hl.det a
    · rintro rfl
      exact .ok hl hv
  · obtain ⟨a, b⟩ := Proj.EckertIV.G_range θ1 θ2
    have hC := Proj.EckertIV.C_pos
    have C1 : (35 : ℝ) / 10 ≤ EckertIV.C := by
      rw [EckertIV.C]
      linarith
    rw [Real.sin_arcsin a b, show EckertIV.G θ / EckertIV.C - Real.sin (rad lat) = -(EckertIV.C * Real.sin (rad lat) - EckertIV.G θ) / EckertIV.C by
      field_simp
      ring, abs_div, abs_neg, abs_of_pos hC, div_le_iff₀ hC]
    norm_num at g ⊢
    linarith
  · have hb' := abs_real hb
    have := piD_lt
    have := abs_sub_abs_le_abs_sub (rad lon - rad lon0 + 2 * Real.pi * k) (v : ℝ)
    rw [abs_sub_comm] at this
    rw [w45]
    linarith
  · refine ⟨θ, θ1, θ2, ?_, rfl, rfl⟩
    obtain ⟨a, b⟩ := Proj.EckertIV.G_range θ1 θ2
    have hC := Proj.EckertIV.C_pos
    rw [Real.sin_arcsin a b]
    change EckertIV.G θ = EckertIV.C * _
    field_simp
  · have d := abscissa_err hm hr (T := θ) hb hk
    rw [show EckertIV.CX * r * (rad lon - rad lon0 + 2 * Real.pi * k) * (1 + Real.cos θ) =
      r * (EckertIV.CX * (rad lon - rad lon0 + 2 * Real.pi * k) * (1 + Real.cos θ)) by ring, w45, hc]
    exact d
  · have a : |(fl (cy m * r) : ℝ) - r * EckertIV.CY| ≤ r * (14 * w) := by
      rw [mul_comm (cy m)]
      refine (scaled hr cy1 cy2 (by linarith)).trans (mul_le_mul_of_nonneg_left ?_ hr0)
      linarith
    obtain ⟨c, c'⟩ := sin_err hm (x := θ) (X := θ) (e := 0) (by rw [sub_self, abs_zero])
    rw [← hs] at c c'
    have d := prod_err hr a c cy2 c' (by linarith) (by norm_num) (by linarith)
    rw [show EckertIV.CY * r * Real.sin θ = r * (EckertIV.CY * Real.sin θ) by ring, w47]
    refine d.trans (mul_le_mul_of_nonneg_left ?_ hr0)
    linarith

/-- There are such functions, and the poles are covered. -/
example : ∃ m : Libm, m.Rounds ∧ |(0 : ℚ)| ≤ 360 ∧ |(180 : ℚ)| ≤ 360 ∧ |(-90 : ℚ)| ≤ 90 ∧ (1 : ℚ) ≤ 6371000 := by
  obtain ⟨m, hm⟩ := exists_rounds
  refine ⟨m, hm, ?_, ?_, ?_, ?_⟩ <;> norm_num

end Eckert
end Flt
end Coral
