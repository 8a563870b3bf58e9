import Verif.Props.FloatsX
import Verif.Props.FloatsW

/-!
# The way back from the Eckert IV projection on floats (C193)

The arguments of both inverse sines stay between -1 and 1, although they are rounded: the greatest numerator is just `C`.
-/
namespace Coral
namespace Flt
namespace Eckert

open Proj (EckertIV.G EckertIV.C EckertIV.CX EckertIV.CY)

theorem c_eq : c = 2 + piD / 2 := by decide +kernel

/-- Numbers a little greater than π/2 are rounded down to `math.pi / 2`. -/
theorem fl_half_pi {z : ℚ} (h : (z : ℝ) ≤ Real.pi / 2 + 4 / 10 ^ 17) : fl z ≤ piD / 2 := by
  have e : fl (piD / 2 + 95 / 100 * 2 ^ (-53 : ℤ)) = piD / 2 := by decide +kernel
  rw [← e]
  refine fl_mono ?_
  have h1 := Real.pi_lt_d20
  have : (z : ℝ) ≤ ((piD / 2 + 95 / 100 * 2 ^ (-53 : ℤ) : ℚ) : ℝ) := by
    rw [piD]
    push_cast
    norm_num at h1 h ⊢
    linarith
  exact_mod_cast this

/-- `theta + sintheta * costheta` is at most π/2, but for rounding. -/
theorem room {m : Libm} (hm : m.Rounds) {T : ℚ} (hT : |T| ≤ piD / 2) : |(T : ℝ)| + |(fl (m.sin T * m.cos T) : ℝ)| ≤ Real.pi / 2 + 4 / 10 ^ 17 := by
  have hw := w_pos
  have hle : w ≤ 2221 / 10 ^ 19 := by
    rw [w_eq]
    norm_num
  have hp := Real.pi_gt_d2
  have hp2 := Real.pi_lt_d2
  have hT' : |(T : ℝ)| ≤ piD / 2 := by
    have := abs_real hT
    push_cast at this
    exact this
  have p := piD_lt
  obtain ⟨d, hd⟩ : ∃ d, d = Real.pi / 2 - |(T : ℝ)| := ⟨_, rfl⟩
  have d0 : 0 < d := by linarith
  have hc : Real.cos T = Real.sin d := by rw [hd, Real.sin_pi_div_two_sub, Real.cos_abs]
  have d1 : d ≤ Real.pi / 2 := by
    have := abs_nonneg (T : ℝ)
    linarith
  have s0 : 0 ≤ Real.sin d := Real.sin_nonneg_of_nonneg_of_le_pi d0.le (by linarith)
  have s1 : Real.sin d ≤ d := Real.sin_le d0.le
  rcases le_total d (35 / 100) with k | k
  · have c0 : 0 ≤ m.cos T := le_near (hm.cos T) double_zero (by push_cast; rw [hc]; exact s0)
    have b1 : |m.sin T| ≤ 1 := by
      have := (sin_err hm (x := T) (X := T) (e := 0) (by simp)).2
      exact_mod_cast this
    have f : |fl (m.sin T * m.cos T)| ≤ m.cos T := by
      have u : |m.sin T * m.cos T| ≤ m.cos T := by
        rw [abs_mul, abs_of_nonneg c0]
        exact mul_le_of_le_one_left c0 b1
      obtain ⟨u1, u2⟩ := abs_le.mp u
      exact abs_le.mpr ⟨le_fl (double_neg (hm.cos T).1) u1, fl_le (hm.cos T).1 u2⟩
    have f' : |(fl (m.sin T * m.cos T) : ℝ)| ≤ m.cos T := by exact_mod_cast f
    have n := (abs_le.mp (near_err (hm.cos T))).2
    rw [hc, abs_of_nonneg s0] at n
    have := mul_le_mul (s1.trans k) le_rfl (by linarith : 0 ≤ w / 2) (by norm_num)
    norm_num at hle ⊢
    linarith
  · obtain ⟨s1', s2⟩ := sin_err hm (x := T) (X := T) (e := 0) (by simp)
    obtain ⟨c1, c2⟩ := cos_err hm (x := T) (X := T) (e := 0) (by simp)
    obtain ⟨q, -⟩ := mul_err s2 c2 (Real.abs_sin_le_one _) s1' c1
    have q' := (abs_sub_abs_le_abs_sub _ _).trans q
    have es : |Real.sin T| = Real.cos d := by
      rw [hd, Real.cos_pi_div_two_sub]
      rcases abs_cases (T : ℝ) with ⟨e, g⟩ | ⟨e, g⟩
      · rw [e, abs_of_nonneg (Real.sin_nonneg_of_nonneg_of_le_pi g (by linarith))]
      · rw [e, Real.sin_neg, abs_of_nonpos (Real.sin_nonpos_of_nonpos_of_neg_pi_le g.le (by linarith))]
    rw [abs_mul, es, hc, abs_of_nonneg s0] at q'
    have half : 2 / Real.pi * (d / 2) ≤ Real.sin (d / 2) := Real.mul_le_sin (by linarith) (by linarith)
    have lo : (11 : ℝ) / 100 ≤ Real.sin (d / 2) := by
      refine le_trans ?_ half
      rw [div_mul_eq_mul_div, le_div_iff₀ (by linarith)]
      linarith
    have cs : Real.cos d ≤ 976 / 1000 := by
      have := Real.cos_sq' (d / 2)
      have e : Real.cos d = 2 * Real.cos (d / 2) ^ 2 - 1 := by rw [← Real.cos_two_mul]; ring_nf
      rw [e]
      nlinarith
    have cp : 0 ≤ Real.cos d := Real.cos_nonneg_of_neg_pi_div_two_le_of_le (by linarith) d1
    have := mul_le_mul cs s1 s0 (by norm_num)
    norm_num at hle ⊢
    linarith

/-- The argument of the second inverse sine. -/
theorem ratio_range {m : Libm} (hm : m.Rounds) {T : ℚ} (hT : |T| ≤ piD / 2) :
    |fl (fl (fl (T + fl (m.sin T * m.cos T)) + fl (2 * m.sin T)) / c)| ≤ 1 := by
  have h := room hm hT
  obtain ⟨a1, a2⟩ := abs_le.mp (abs_add_le (T : ℝ) (fl (m.sin T * m.cos T)))
  have A1 : fl (T + fl (m.sin T * m.cos T)) ≤ piD / 2 := fl_half_pi (by push_cast; linarith)
  have A2 : -(piD / 2) ≤ fl (T + fl (m.sin T * m.cos T)) := by
    have := fl_half_pi (z := -(T + fl (m.sin T * m.cos T))) (by push_cast; linarith)
    rw [fl_neg] at this
    linarith
  obtain ⟨b1, b2⟩ : -1 ≤ m.sin T ∧ m.sin T ≤ 1 := by
    have := (sin_err hm (x := T) (X := T) (e := 0) (by simp)).2
    exact abs_le.mp (by exact_mod_cast this)
  have two : IsDouble 2 := ⟨2, 0, by norm_num, by norm_num, by norm_num⟩
  have B1 : fl (2 * m.sin T) ≤ 2 := fl_le two (by linarith)
  have B2 : -2 ≤ fl (2 * m.sin T) := le_fl (double_neg two) (by linarith)
  have cd : IsDouble c := fl_double _
  have cp : 0 < c := by decide +kernel
  have e := c_eq
  have N1 : fl (fl (T + fl (m.sin T * m.cos T)) + fl (2 * m.sin T)) ≤ c := fl_le cd (by linarith)
  have N2 : -c ≤ fl (fl (T + fl (m.sin T * m.cos T)) + fl (2 * m.sin T)) := le_fl (double_neg cd) (by linarith)
  rw [abs_le]
  constructor
  · refine le_fl (double_neg double_one) ?_
    rw [le_div_iff₀ cp]
    linarith
  · refine fl_le double_one ?_
    rw [div_le_one cp]
    exact N1

theorem asin_ok {asin : ℚ → ℚ} {x : ℚ} (h : |x| ≤ 1) : pyAsin asin x = .ok (asin x) := by
  obtain ⟨h0, h1⟩ := abs_le.mp h
  rw [pyAsin, if_neg]
  rintro (k | k) <;> linarith

/-- The factors are positive. -/
theorem factors {m : Libm} (hm : m.Rounds) {r : ℚ} (hr : 1 ≤ r) : 3 / 10 * r ≤ fl (cx m * r) ∧ |(fl (cx m * r) : ℝ) - r * EckertIV.CX| ≤ r * (5 * w) ∧
    2 / 5 ≤ EckertIV.CX ∧ 12 / 10 * r ≤ fl (cy m * r) ∧ |(fl (cy m * r) : ℝ) - r * EckertIV.CY| ≤ r * (14 * w) := by
  have hw := w_pos
  have hle := w_tiny
  have hp1 := Real.pi_gt_d2
  have hp2 := Real.pi_lt_d2
  have hr' : (1 : ℝ) ≤ r := by exact_mod_cast hr
  have hr0 : (0 : ℝ) ≤ r := by linarith
  obtain ⟨cx1, cx2⟩ := cx_err hm
  obtain ⟨cy1, cy2⟩ := cy_err hm
  have X0 : 2 / 5 ≤ EckertIV.CX := by
    have : √(4 * Real.pi + Real.pi * Real.pi) ≤ 5 := Real.sqrt_le_iff.mpr ⟨by norm_num, by nlinarith⟩
    rw [EckertIV.CX]
    exact div_le_div_of_nonneg_left (by norm_num) (Real.sqrt_pos.mpr (by nlinarith)) this
  have Y0 : 13 / 10 ≤ EckertIV.CY := by
    have : (65 : ℝ) / 100 ≤ √(Real.pi / (4 + Real.pi)) := Real.le_sqrt_of_sq_le (by
      rw [le_div_iff₀ (by linarith)]
      nlinarith)
    rw [EckertIV.CY]
    linarith
  have a : |(fl (cx m * r) : ℝ) - r * EckertIV.CX| ≤ r * (5 * w) := by
    rw [mul_comm (cx m)]
    refine (scaled hr cx1 cx2 (by linarith)).trans (mul_le_mul_of_nonneg_left ?_ hr0)
    linarith
  have b : |(fl (cy m * r) : ℝ) - r * EckertIV.CY| ≤ r * (14 * w) := by
    rw [mul_comm (cy m)]
    refine (scaled hr cy1 cy2 (by linarith)).trans (mul_le_mul_of_nonneg_left ?_ hr0)
    linarith
  refine ⟨?_, a, X0, ?_, b⟩
  · have := (abs_le.mp a).1
    have g : (3 / 10 : ℝ) * r ≤ fl (cx m * r) := by nlinarith
    have g' : (((3 / 10 * r : ℚ)) : ℝ) ≤ fl (cx m * r) := by push_cast; exact g
    exact_mod_cast g'
  · have := (abs_le.mp b).1
    have g : (12 / 10 : ℝ) * r ≤ fl (cy m * r) := by nlinarith
    have g' : (((12 / 10 * r : ℚ)) : ℝ) ≤ fl (cy m * r) := by push_cast; exact g
    exact_mod_cast g'

/-- `rect2geo` from the argument of the first inverse sine on. -/
theorem back_ok {m : Libm} (hm : m.Rounds) {asin : ℚ → ℚ} (ha : RoundsAsin asin) {lon0 r x y : ℚ} (hr : 1 ≤ r) (hq : |fl (y / fl (cy m * r))| ≤ 1) :
    rect2geo m asin lon0 r x y =
      .ok (degrees (fl (lon0 + fl (x / fl (fl (cx m * r) * fl (1 + m.cos (asin (fl (y / fl (cy m * r))))))))),
        degrees (asin (fl (fl (fl (asin (fl (y / fl (cy m * r))) + fl (m.sin (asin (fl (y / fl (cy m * r)))) * m.cos (asin (fl (y / fl (cy m * r)))))) +
          fl (2 * m.sin (asin (fl (y / fl (cy m * r)))))) / c)))) := by
  obtain ⟨fx, -, -, fy, -⟩ := factors hm hr
  have y0 : fl (cy m * r) ≠ 0 := by
    intro e
    rw [e] at fy
    linarith
  obtain ⟨q, hq'⟩ : ∃ q, q = fl (y / fl (cy m * r)) := ⟨_, rfl⟩
  rw [← hq'] at hq ⊢
  obtain ⟨q0, q1⟩ := abs_le.mp hq
  have N := ha q q0 q1
  have rr := right_range N (abs_le.mpr ⟨Real.neg_pi_div_two_le_arcsin _, Real.arcsin_le_pi_div_two _⟩)
  have hp := Real.pi_gt_d2
  have c0 : 0 ≤ m.cos (asin q) := by
    refine le_near (hm.cos _) double_zero ?_
    have := abs_real rr
    push_cast at this
    have := piD_lt
    have := abs_le.mp (abs_real rr)
    push_cast at this ⊢
    exact Real.cos_nonneg_of_neg_pi_div_two_le_of_le (by linarith) (by linarith)
  have o1 : 1 ≤ fl (1 + m.cos (asin q)) := le_fl double_one (by linarith)
  have x0 : fl (fl (cx m * r) * fl (1 + m.cos (asin q))) ≠ 0 := by
    have : fl (cx m * r) ≤ fl (fl (cx m * r) * fl (1 + m.cos (asin q))) := le_fl (fl_double _) (le_mul_of_one_le_right (by linarith) o1)
    intro e
    rw [e] at this
    linarith
  have cp : c ≠ 0 := by decide +kernel
  rw [rect2geo, div_ok y0, ← hq']
  change (pyAsin asin q >>= _) = _
  rw [asin_ok hq]
  change (div x (fl (fl (cx m * r) * fl (1 + m.cos (asin q)))) >>= _) = _
  rw [div_ok x0]
  change (div _ c >>= _) = _
  rw [div_ok cp]
  change (pyAsin asin _ >>= _) = _
  rw [asin_ok (ratio_range hm rr)]
  rfl

theorem CY_bounds : 132650004 / 10 ^ 8 ≤ EckertIV.CY ∧ EckertIV.CY ≤ 132651 / 10 ^ 5 := by
  have h1 := Real.pi_gt_d6
  have h2 := Real.pi_lt_d6
  have hp : 0 < 4 + Real.pi := by linarith
  rw [EckertIV.CY]
  constructor
  · have : (66325002 : ℝ) / 10 ^ 8 ≤ √(Real.pi / (4 + Real.pi)) := Real.le_sqrt_of_sq_le (by
      rw [le_div_iff₀ hp]
      norm_num at h1 h2 ⊢
      linarith)
    norm_num at this ⊢
    linarith
  · have : √(Real.pi / (4 + Real.pi)) ≤ 663255 / 10 ^ 6 := Real.sqrt_le_iff.mpr ⟨by norm_num, by
      rw [div_le_iff₀ hp]
      norm_num at h1 h2 ⊢
      linarith⟩
    norm_num at this ⊢
    linarith

theorem lat_range {m : Libm} (hm : m.Rounds) {asin : ℚ → ℚ} (ha : RoundsAsin asin) {S : ℚ} (h : |S| ≤ 1) : |asin S| ≤ piD / 2 := by
  obtain ⟨h0, h1⟩ := abs_le.mp h
  exact right_range (ha S h0 h1) (abs_le.mpr ⟨Real.neg_pi_div_two_le_arcsin _, Real.arcsin_le_pi_div_two _⟩)

/-- **C193**: `rect2geo` returns a position for every ordinate of the map, also near the poles; the latitude is between -90 and 90. Farther out it raises `ValueError`. -/
theorem C193_returns (m : Libm) (hm : m.Rounds) (asin : ℚ → ℚ) (ha : RoundsAsin asin) (lon0 r x y : ℚ) (hr : 1 ≤ r) :
    (|y| ≤ 13265 / 10000 * r → ∃ lon lat, rect2geo m asin lon0 r x y = .ok (lon, lat) ∧ |lat| ≤ 90) ∧
      (13266 / 10000 * r ≤ |y| → rect2geo m asin lon0 r x y = .error .valueError) := by
  have hw := w_pos
  have hle := w_tiny
  have hr' : (1 : ℝ) ≤ r := by exact_mod_cast hr
  obtain ⟨-, -, -, fy, fe⟩ := factors hm hr
  obtain ⟨Y1, Y2⟩ := CY_bounds
  obtain ⟨f1, f2⟩ := abs_le.mp fe
  obtain ⟨R, hR⟩ : ∃ R, R = fl (cy m * r) := ⟨_, rfl⟩
  rw [← hR] at fy f1 f2
  have Rp : 0 < R := by linarith
  have lo : 13265 / 10000 * r ≤ R := by
    have : ((13265 / 10000 * r : ℚ) : ℝ) ≤ R := by
      push_cast
      norm_num at Y1 hle
      nlinarith
    exact_mod_cast this
  have hi : R * (1 + 2 ^ (-20 : ℤ)) ≤ 13266 / 10000 * r := by
    have : ((R * (1 + 2 ^ (-20 : ℤ)) : ℚ) : ℝ) ≤ ((13266 / 10000 * r : ℚ) : ℝ) := by
      have : (R : ℝ) ≤ 132652 / 10 ^ 5 * r := by
        norm_num at Y2 hle ⊢
        nlinarith
      push_cast
      norm_num at this ⊢
      linarith
    exact_mod_cast this
  constructor
  · intro h
    have q : |fl (y / fl (cy m * r))| ≤ 1 := by
      rw [← hR]
      have u : |y / R| ≤ 1 := by
        rw [abs_div, abs_of_pos Rp, div_le_one Rp]
        linarith
      obtain ⟨u1, u2⟩ := abs_le.mp u
      exact abs_le.mpr ⟨le_fl (double_neg double_one) u1, fl_le double_one u2⟩
    exact ⟨_, _, back_ok hm ha hr q, degrees_right (lat_range hm ha (ratio_range hm (lat_range hm ha q)))⟩
  · intro h
    have d1 : IsDouble (1 + 2 ^ (-20 : ℤ)) := ⟨2 ^ 20 + 1, -20, by norm_num, by norm_num, by norm_num⟩
    have out : fl (y / R) < -1 ∨ 1 < fl (y / R) := by
      rcases le_total 0 y with k | k
      · right
        rw [abs_of_nonneg k] at h
        have : 1 + 2 ^ (-20 : ℤ) ≤ fl (y / R) := le_fl d1 (by
          rw [le_div_iff₀ Rp, mul_comm]
          exact hi.trans h)
        refine lt_of_lt_of_le ?_ this
        norm_num
      · left
        rw [abs_of_nonpos k] at h
        have : fl (y / R) ≤ -(1 + 2 ^ (-20 : ℤ)) := fl_le (double_neg d1) (by
          rw [div_le_iff₀ Rp, neg_mul, mul_comm]
          exact le_neg.mp (hi.trans h))
        refine lt_of_le_of_lt this ?_
        norm_num
    rw [rect2geo, ← hR, div_ok Rp.ne']
    change (pyAsin asin (fl (y / R)) >>= _) = _
    rw [pyAsin, if_pos out]
    rfl

/-! ### The round trip -/

/-- The left side of the equation changes at most four times as fast as the sine. -/
theorem G_sin_lt {a b : ℝ} (h0 : -(Real.pi / 2) ≤ a) (h : a < b) (h1 : b ≤ Real.pi / 2) : |EckertIV.G b - EckertIV.G a| ≤ 4 * |Real.sin b - Real.sin a| := by
  obtain ⟨ξ, ⟨x0, x1⟩, e⟩ := exists_ratio_hasDerivAt_eq_ratio_slope EckertIV.G (fun x => 2 * Real.cos x * (1 + Real.cos x)) h
    Proj.EckertIV.G_cont.continuousOn (fun x _ => Proj.EckertIV.G_deriv x) Real.sin Real.cos Real.continuous_sin.continuousOn (fun x _ => Real.hasDerivAt_sin x)
  have c0 : 0 < Real.cos ξ := Real.cos_pos_of_mem_Ioo ⟨by linarith, by linarith⟩
  have c1 := Real.cos_le_one ξ
  have e' : EckertIV.G b - EckertIV.G a = 2 * (1 + Real.cos ξ) * (Real.sin b - Real.sin a) := by
    refine mul_right_cancel₀ c0.ne' ?_
    linear_combination -e
  rw [e', abs_mul, abs_of_pos (by linarith : 0 < 2 * (1 + Real.cos ξ))]
  exact mul_le_mul_of_nonneg_right (by linarith) (abs_nonneg _)

theorem G_sin {a b : ℝ} (ha : |a| ≤ Real.pi / 2) (hb : |b| ≤ Real.pi / 2) : |EckertIV.G b - EckertIV.G a| ≤ 4 * |Real.sin b - Real.sin a| := by
  obtain ⟨a0, a1⟩ := abs_le.mp ha
  obtain ⟨b0, b1⟩ := abs_le.mp hb
  rcases lt_trichotomy a b with h | rfl | h
  · exact G_sin_lt a0 h b1
  · simp
  · rw [abs_sub_comm, abs_sub_comm (Real.sin b)]
    exact G_sin_lt b0 h a1

/-- The inverse sine. -/
theorem asin_err {asin : ℚ → ℚ} (ha : RoundsAsin asin) {q : ℚ} (h : |q| ≤ 1) : |(asin q : ℝ) - Real.arcsin q| ≤ w ∧ |Real.sin (asin q) - q| ≤ w := by
  have hw := w_pos
  have hp := Real.pi_lt_d2
  obtain ⟨h0, h1⟩ := abs_le.mp h
  have h0' : (-1 : ℝ) ≤ q := by exact_mod_cast h0
  have h1' : (q : ℝ) ≤ 1 := by exact_mod_cast h1
  have n := near_err (ha q h0 h1)
  have b : |Real.arcsin q| ≤ 16 / 10 := abs_le.mpr ⟨by linarith [Real.neg_pi_div_two_le_arcsin (q : ℝ)], by linarith [Real.arcsin_le_pi_div_two (q : ℝ)]⟩
  have := mul_le_mul_of_nonneg_right b (by linarith : 0 ≤ w / 2)
  have k : |(asin q : ℝ) - Real.arcsin q| ≤ w := by linarith
  refine ⟨k, ?_⟩
  have := Real.abs_sin_sub_sin_le (asin q : ℝ) (Real.arcsin q)
  rw [Real.sin_arcsin h0' h1'] at this
  linarith

/-- The ordinate, divided again. -/
theorem again {R s : ℚ} (hR : 1 ≤ R) (hd : IsDouble R) (hs : |s| ≤ 1) : |fl (fl (R * s) / R)| ≤ 1 ∧ |(fl (fl (R * s) / R) : ℝ) - s| ≤ 2 * w := by
  have hw := w_pos
  have hle := w_tiny
  have Rp : 0 < R := by linarith
  have hR' : (1 : ℝ) ≤ R := by exact_mod_cast hR
  have hs' : |(s : ℝ)| ≤ 1 := by exact_mod_cast hs
  obtain ⟨s0, s1⟩ := abs_le.mp hs
  have y0 : -R ≤ fl (R * s) := le_fl (double_neg hd) (by nlinarith)
  have y1 : fl (R * s) ≤ R := fl_le hd (by nlinarith)
  constructor
  · rw [abs_le]
    constructor
    · refine le_fl (double_neg double_one) ?_
      rw [le_div_iff₀ Rp]
      linarith
    · refine fl_le double_one ?_
      rw [div_le_one Rp]
      exact y1
  · have a := scaled hR (l := s) (L := s) (e := 0) (B := 1) (by simp) hs' (by norm_num)
    have b := fl_err_real (R * s)
    push_cast at b
    rw [abs_mul, abs_of_pos (by linarith : (0 : ℝ) < R)] at b
    have c : |((fl (R * s) / R : ℚ) : ℝ) - s| ≤ 6 / 10 * w := by
      push_cast
      rw [show (fl (R * s) : ℝ) / R - s = (fl (R * s) - R * s) / R by field_simp, abs_div, abs_of_pos (by linarith : (0 : ℝ) < R), div_le_iff₀ (by linarith)]
      nlinarith
    have e : |((fl (R * s) / R : ℚ) : ℝ)| ≤ 1 := by
      have : |fl (R * s) / R| ≤ 1 := by
        rw [abs_div, abs_of_pos Rp, div_le_one Rp]
        exact abs_le.mpr ⟨y0, y1⟩
      exact_mod_cast this
    have f := fl_err_real (fl (R * s) / R)
    have g := mul_le_mul_of_nonneg_right e (by linarith : 0 ≤ w / 2)
    have := abs_sub_le (fl (fl (R * s) / R) : ℝ) ((fl (R * s) / R : ℚ) : ℝ) s
    linarith

/-- Angles with nearly the same sine. -/
theorem cos_near {a b : ℝ} (ha : |a| ≤ Real.pi / 2) (hb : |b| ≤ Real.pi / 2) (h : |Real.sin a - Real.sin b| ≤ 4 * w) : |Real.cos a - Real.cos b| ≤ 5 / 10 ^ 8 := by
  have hw := w_pos
  have hle : w ≤ 23 / 10 ^ 17 := by
    rw [w_eq]
    norm_num
  obtain ⟨a0, a1⟩ := abs_le.mp ha
  obtain ⟨b0, b1⟩ := abs_le.mp hb
  have ca := Real.cos_nonneg_of_neg_pi_div_two_le_of_le a0 a1
  have cb := Real.cos_nonneg_of_neg_pi_div_two_le_of_le b0 b1
  refine abs_le_of_sq_le_sq ?_ (by norm_num)
  have e : (Real.cos a - Real.cos b) * (Real.cos a + Real.cos b) = (Real.sin b - Real.sin a) * (Real.sin b + Real.sin a) := by
    linear_combination Real.sin_sq_add_cos_sq a - Real.sin_sq_add_cos_sq b
  have s : |Real.sin b + Real.sin a| ≤ 2 := (abs_add_le _ _).trans (by linarith [Real.abs_sin_le_one a, Real.abs_sin_le_one b])
  have k : |(Real.cos a - Real.cos b) * (Real.cos a + Real.cos b)| ≤ 8 * w := by
    rw [e, abs_mul, abs_sub_comm]
    have := mul_le_mul h s (abs_nonneg _) (by linarith)
    linarith
  have l : (Real.cos a - Real.cos b) ^ 2 ≤ |(Real.cos a - Real.cos b) * (Real.cos a + Real.cos b)| := by
    rw [abs_mul, ← sq_abs, sq]
    refine mul_le_mul_of_nonneg_left ?_ (abs_nonneg _)
    rw [abs_of_nonneg (by linarith : 0 ≤ Real.cos a + Real.cos b), abs_le]
    constructor <;> linarith
  norm_num at hle ⊢
  linarith

/-- The latitude of the way back. -/
theorem lat_back {m : Libm} (hm : m.Rounds) {asin : ℚ → ℚ} (ha : RoundsAsin asin) {T S : ℚ} {θ : ℝ} (hT : |T| ≤ piD / 2) (hθ : |θ| ≤ Real.pi / 2)
    (hs : |Real.sin T - Real.sin θ| ≤ 4 * w) (hS : S = fl (fl (fl (T + fl (m.sin T * m.cos T)) + fl (2 * m.sin T)) / c)) :
    |degrees (asin S)| ≤ 90 ∧ |Real.sin (rad (degrees (asin S) : ℚ)) - EckertIV.G θ / EckertIV.C| ≤ 33 * w := by
  have hw := w_pos
  have hle := w_tiny
  have hp := Real.pi_gt_d2
  have hp2 := Real.pi_lt_d2
  have hT' : |(T : ℝ)| ≤ Real.pi / 2 := by
    have := abs_real hT
    have := piD_lt
    push_cast at *
    linarith
  have S1 : |S| ≤ 1 := hS ▸ ratio_range hm hT
  refine ⟨degrees_right (lat_range hm ha S1), ?_⟩
  -- the numerator
  obtain ⟨N, hN⟩ : ∃ N, N = fl (fl (T + fl (m.sin T * m.cos T)) + fl (2 * m.sin T)) := ⟨_, rfl⟩
  rw [← hN] at hS
  have n := (parts_err hm (T := T) (sl := 0) (S := 0) (by linarith) (by simp) (by simp; linarith)).1
  rw [mul_zero, fl_id double_zero, sub_zero, ← hN, fl_id (hN ▸ fl_double _), mul_zero, sub_zero] at n
  have g := G_sin hθ hT'
  have n2 : |(N : ℝ) - EckertIV.G θ| ≤ 78 * w := by
    have := abs_sub_le (N : ℝ) (EckertIV.G T) (EckertIV.G θ)
    linarith
  have hC := Proj.EckertIV.C_pos
  have C1 : (35 : ℝ) / 10 ≤ EckertIV.C := by
    rw [EckertIV.C]
    linarith
  have ce := c_err
  have cp : (34 : ℝ) / 10 ≤ c := by
    have := (abs_le.mp ce).1
    linarith
  obtain ⟨θ0, θ1⟩ := abs_le.mp hθ
  obtain ⟨r0, r1⟩ := Proj.EckertIV.G_range θ0 θ1
  have rr : |EckertIV.G θ / EckertIV.C| ≤ 1 := abs_le.mpr ⟨r0, r1⟩
  obtain ⟨ρ, hρ⟩ : ∃ ρ, ρ = EckertIV.G θ / EckertIV.C := ⟨_, rfl⟩
  have Gρ : EckertIV.G θ = ρ * EckertIV.C := by rw [hρ, div_mul_cancel₀ _ hC.ne']
  rw [← hρ] at rr ⊢
  have quot : |((N / c : ℚ) : ℝ) - ρ| ≤ 24 * w := by
    push_cast
    have c0 : (c : ℝ) ≠ 0 := by linarith
    rw [show (N : ℝ) / c - ρ = ((N - EckertIV.G θ) - ρ * (c - EckertIV.C)) / c by
      field_simp
      linear_combination Gρ, abs_div, abs_of_pos (by linarith : (0 : ℝ) < c), div_le_iff₀ (by linarith)]
    refine (abs_sub _ _).trans ?_
    rw [abs_mul]
    have := mul_le_mul rr ce (abs_nonneg _) (by norm_num : (0 : ℝ) ≤ 1)
    nlinarith
  have f := fl_step quot rr (by linarith)
  rw [← hS] at f
  obtain ⟨a, -⟩ := asin_err ha S1
  have X4 : |Real.arcsin S| ≤ 4 := abs_le.mpr ⟨by linarith [Real.neg_pi_div_two_le_arcsin (S : ℝ)], by linarith [Real.arcsin_le_pi_div_two (S : ℝ)]⟩
  have d := degrees_err a X4 (by linarith)
  have e : |rad (degrees (asin S) : ℚ) - Real.arcsin S| ≤ 7 * w := by
    have := rad_abs d
    rw [show rad ((degrees (asin S) : ℝ) - deg (Real.arcsin S)) = rad (degrees (asin S) : ℝ) - rad (deg (Real.arcsin S)) by
      simp only [rad]
      ring, rad_deg] at this
    linarith
  have k := Real.abs_sin_sub_sin_le (rad (degrees (asin S) : ℚ)) (Real.arcsin S)
  obtain ⟨S2, S3⟩ := abs_le.mp S1
  rw [Real.sin_arcsin (by exact_mod_cast S2) (by exact_mod_cast S3)] at k
  have := abs_sub_le (Real.sin (rad (degrees (asin S) : ℚ))) S ρ
  linarith

/-- The longitude of the way back. -/
theorem lon_way_back {m : Libm} (hm : m.Rounds) {lon0 lon r v T θ : ℚ} {k : ℤ} (hr : 1 ≤ r) (l0 : |lon0| ≤ 360) (hv : |v| ≤ piD)
    (hk : |(v : ℝ) - (rad lon - rad lon0 + 2 * Real.pi * k)| ≤ 76 * w) (hc : |Real.cos T - Real.cos θ| ≤ 5 / 10 ^ 8) (hT : 0 ≤ Real.cos T) :
    |(degrees (fl (radians lon0 + fl (fl (fl (fl (cx m * r) * v) * fl (1 + m.cos θ)) / fl (fl (cx m * r) * fl (1 + m.cos T))))) : ℝ) - (lon + 360 * k)| ≤ 2 / 10 ^ 5 := by
  have hw := w_pos
  have hle := w_tiny
  have hr' : (1 : ℝ) ≤ r := by exact_mod_cast hr
  have hr0 : (0 : ℝ) ≤ r := by linarith
  obtain ⟨V, hV⟩ : ∃ V, V = rad lon - rad lon0 + 2 * Real.pi * k := ⟨_, rfl⟩
  rw [← hV] at hk
  have hV' : |V| ≤ 33 / 10 := by
    have := abs_sub_abs_le_abs_sub V (v : ℝ)
    rw [abs_sub_comm] at this
    have := abs_real hv
    have := piD_real
    linarith
  have x := abscissa_err hm hr (T := θ) hv hk
  obtain ⟨-, fe, K1, -, -⟩ := factors hm hr
  obtain ⟨-, K2⟩ := cx_err hm
  obtain ⟨p, p'⟩ := cos_plus hm T
  have d : |(fl (fl (cx m * r) * fl (1 + m.cos T)) : ℝ) - r * (EckertIV.CX * (1 + Real.cos T))| ≤ r * (14 * w) := by
    refine (prod_err hr fe p K2 p' (by linarith) (by norm_num) (by linarith)).trans (mul_le_mul_of_nonneg_left ?_ hr0)
    linarith
  obtain ⟨D, hD⟩ : ∃ D, D = fl (fl (cx m * r) * fl (1 + m.cos T)) := ⟨_, rfl⟩
  obtain ⟨X, hX⟩ : ∃ X, X = fl (fl (fl (cx m * r) * v) * fl (1 + m.cos θ)) := ⟨_, rfl⟩
  rw [← hD] at d ⊢
  rw [← hX] at x ⊢
  have Dp : r * (39 / 100) ≤ (D : ℝ) := by
    have := (abs_le.mp d).1
    have a : r * (2 / 5) ≤ r * (EckertIV.CX * (1 + Real.cos T)) := mul_le_mul_of_nonneg_left (by nlinarith) hr0
    have b : (r : ℝ) * (14 * w) ≤ r * (1 / 100) := mul_le_mul_of_nonneg_left (by linarith) hr0
    linarith
  have D0 : (0 : ℝ) < D := by linarith
  have num : |(X : ℝ) - V * D| ≤ r * (83 / 10 ^ 9) := by
    rw [show (X : ℝ) - V * D = (X - r * (EckertIV.CX * V * (1 + Real.cos θ))) - r * (EckertIV.CX * (V * (Real.cos T - Real.cos θ))) -
      V * (D - r * (EckertIV.CX * (1 + Real.cos T))) by ring]
    refine ((abs_sub _ _).trans (add_le_add_left (abs_sub _ _) _)).trans ?_
    rw [abs_mul (r : ℝ), abs_of_nonneg hr0, abs_mul EckertIV.CX, abs_mul V, abs_mul V]
    have a := mul_le_mul_of_nonneg_left (mul_le_mul K2 (mul_le_mul hV' hc (abs_nonneg _) (by norm_num)) (by positivity) (by norm_num)) hr0
    have b := mul_le_mul hV' d (abs_nonneg _) (by norm_num : (0 : ℝ) ≤ 33 / 10)
    have e : (r : ℝ) * (128 * w) + r * (1 / 2 * (33 / 10 * (5 / 10 ^ 8))) + 33 / 10 * (r * (14 * w)) ≤ r * (83 / 10 ^ 9) := by
      rw [show (r : ℝ) * (128 * w) + r * (1 / 2 * (33 / 10 * (5 / 10 ^ 8))) + 33 / 10 * (r * (14 * w)) =
        r * (128 * w + 1 / 2 * (33 / 10 * (5 / 10 ^ 8)) + 33 / 10 * (14 * w)) by ring]
      refine mul_le_mul_of_nonneg_left ?_ hr0
      norm_num at hle ⊢
      linarith
    linarith
  have quot : |((X / D : ℚ) : ℝ) - V| ≤ 214 / 10 ^ 9 := by
    push_cast
    rw [show (X : ℝ) / D - V = (X - V * D) / D by field_simp, abs_div, abs_of_pos D0, div_le_iff₀ D0]
    have := mul_le_mul_of_nonneg_left Dp (by norm_num : (0 : ℝ) ≤ 214 / 10 ^ 9)
    norm_num at num this ⊢
    linarith
  have f := fl_step quot hV' (by norm_num)
  have l0' := abs_real l0
  push_cast at l0'
  have R0 := radians_err (x := lon0) (by linarith)
  have s : |((radians lon0 + fl (X / D) : ℚ) : ℝ) - (rad lon0 + V)| ≤ 215 / 10 ^ 9 := by
    push_cast
    rw [show (radians lon0 : ℝ) + fl (X / D) - (rad lon0 + V) = (radians lon0 - rad lon0) + (fl (X / D) - V) by ring]
    refine (abs_add_le _ _).trans ?_
    norm_num at f hle ⊢
    linarith
  have B : |rad lon0 + V| ≤ 10 := by
    have := rad_abs l0'
    exact (abs_add_le _ _).trans (by linarith)
  have g := fl_step s B (by norm_num)
  have h := degrees_err_ten (x := fl (radians lon0 + fl (X / D))) (e := 22 / 10 ^ 8) (X := rad lon0 + V) (by
    norm_num at g hle ⊢
    linarith) B (by norm_num)
  have e : deg (rad lon0 + V) = lon + 360 * k := by
    have := Real.pi_ne_zero
    rw [hV, deg, rad, rad]
    field_simp
    ring
  rw [e] at h
  norm_num at h hle ⊢
  linarith

/-- **C193**: the way back from the image of a position ends on the same meridian and, but for the tolerance of the loop, at the same latitude; also at the poles. -/
theorem C193_back (m : Libm) (hm : m.Rounds) (asin : ℚ → ℚ) (ha : RoundsAsin asin) (lon0 r lon lat : ℚ) (l0 : |lon0| ≤ 360) (l1 : |lon| ≤ 360) (h : |lat| ≤ 90) (hr : 1 ≤ r) :
    ∃ x y lon' lat', (∀ res, Geo2rect m (radians lon0) r lon lat res ↔ res = .ok (x, y)) ∧ rect2geo m asin (radians lon0) r x y = .ok (lon', lat') ∧
      |lat'| ≤ 90 ∧ |Real.sin (rad lat') - Real.sin (rad lat)| ≤ 3 / 2 / 10 ^ 6 ∧ ∃ k : ℤ, |(lon' : ℝ) - (lon + 360 * k)| ≤ 2 / 10 ^ 5 := by
  have hw := w_pos
  have hle := w_tiny
  have hp := Real.pi_gt_d2
  obtain ⟨s, θ, hl, hc, hs, θ1, θ2, g⟩ := loop_float hm h
  obtain ⟨v, hv, hu, hb, k, hk⟩ := corangle_lon l0 l1
  obtain ⟨-, -, -, fy, -⟩ := factors hm hr
  have hθ : |(θ : ℝ)| ≤ Real.pi / 2 := abs_le.mpr ⟨θ1, θ2⟩
  obtain ⟨s1, s2⟩ := sin_err hm (x := θ) (X := θ) (e := 0) (by simp)
  obtain ⟨q1, q2⟩ := again (R := fl (cy m * r)) (by linarith) (fl_double _) (by exact_mod_cast s2)
  have T1 := lat_range hm ha q1
  obtain ⟨t1, t2⟩ := asin_err ha q1
  obtain ⟨q, hq⟩ : ∃ q, q = fl (fl (fl (cy m * r) * m.sin θ) / fl (cy m * r)) := ⟨_, rfl⟩
  have ok := back_ok hm ha (lon0 := radians lon0) (x := fl (fl (fl (cx m * r) * v) * fl (1 + m.cos θ))) hr q1
  rw [← hq] at ok q1 q2 T1 t1 t2
  have hT' : |(asin q : ℝ)| ≤ Real.pi / 2 := by
    have := abs_real T1
    have := piD_lt
    push_cast at *
    linarith
  have sn : |Real.sin (asin q) - Real.sin θ| ≤ 4 * w := by
    have a := abs_sub_le (Real.sin (asin q)) q (Real.sin θ)
    have b := abs_sub_le (q : ℝ) (m.sin θ) (Real.sin θ)
    linarith
  obtain ⟨L1, L2⟩ := lat_back hm ha T1 hθ sn rfl
  refine ⟨_, _, _, _, ?_, ok, L1, ?_, k, lon_way_back hm hr l0 hb hk (cos_near hT' hθ sn) (Real.cos_nonneg_of_neg_pi_div_two_le_of_le (abs_le.mp hT').1 (abs_le.mp hT').2)⟩
  · intro res
    constructor
    · intro h
      cases h with
      | ok a b =>
        have e := hl.det a
        rw [Except.ok.injEq] at e
        rw [hu _ b, ← e, hc, hs]
      | raise a => cases hl.det a
    · rintro rfl
      rw [← hc, ← hs]
      exact .ok hl hv
  · have hC := Proj.EckertIV.C_pos
    have C1 : (35 : ℝ) / 10 ≤ EckertIV.C := by
      rw [EckertIV.C]
      linarith
    have e : |EckertIV.G θ / EckertIV.C - Real.sin (rad lat)| ≤ 143 / 10 ^ 8 := by
      rw [show EckertIV.G θ / EckertIV.C - Real.sin (rad lat) = -(EckertIV.C * Real.sin (rad lat) - EckertIV.G θ) / EckertIV.C by
        field_simp
        ring, abs_div, abs_neg, abs_of_pos hC, div_le_iff₀ hC]
      norm_num at g ⊢
      linarith
    refine (abs_sub_le _ (EckertIV.G θ / EckertIV.C) _).trans ?_
    norm_num at e hle ⊢
    linarith

/-- There are such functions, and the poles are covered. -/
example : ∃ (m : Libm) (asin : ℚ → ℚ), m.Rounds ∧ RoundsAsin asin ∧ |(0 : ℚ)| ≤ 360 ∧ |(-90 : ℚ)| ≤ 90 ∧ (1 : ℚ) ≤ 6371000 ∧ |(8451000 : ℚ)| ≤ 13265 / 10000 * 6371000 ∧
    13266 / 10000 * 6371000 ≤ |(8452000 : ℚ)| := by
  obtain ⟨m, hm⟩ := exists_rounds
  choose f hf using fun x : ℚ => exists_near (Real.arcsin x)
  refine ⟨m, f, hm, fun x _ _ => hf x, ?_, ?_, ?_, ?_, ?_⟩ <;> norm_num

end Eckert
end Flt
end Coral
