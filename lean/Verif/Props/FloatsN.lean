import Verif.Model.FloatsN
import Verif.Props.FloatsM

/-!
# Navigation on floats (C179, C180, C181)
-/
namespace Coral
namespace Flt

open Spec (arc)
open Sph (arc_nonneg arc_le_pi)

/-! ### Steps of a calculation -/

theorem w_tiny : w ≤ 1 / 10 ^ 15 := by
  rw [w_eq]
  norm_num

theorem add_err {a b : ℚ} {A B e f : ℝ} (ha : |(a : ℝ)| ≤ 1) (hb : |(b : ℝ)| ≤ 1) (h1 : |(a : ℝ) - A| ≤ e) (h2 : |(b : ℝ) - B| ≤ f) :
    |(fl (a + b) : ℝ) - (A + B)| ≤ e + f + 2 * w := by
  have hw := w_pos
  have c := fl_err_real (a + b)
  push_cast at c
  have d : |(a : ℝ) + b| ≤ 2 := (abs_add_le _ _).trans (by linarith)
  have d' := mul_le_mul_of_nonneg_right d (by linarith : (0 : ℝ) ≤ w / 2)
  have t := abs_sub_le (fl (a + b) : ℝ) (a + b) (A + B)
  have u : |(a : ℝ) + b - (A + B)| ≤ e + f := by
    rw [show (a : ℝ) + b - (A + B) = (a - A) + (b - B) by ring]
    exact (abs_add_le _ _).trans (by linarith)
  linarith

theorem sub_err {a b : ℚ} {A B e f : ℝ} (ha : |(a : ℝ)| ≤ 1) (hb : |(b : ℝ)| ≤ 1) (h1 : |(a : ℝ) - A| ≤ e) (h2 : |(b : ℝ) - B| ≤ f) :
    |(fl (a - b) : ℝ) - (A - B)| ≤ e + f + 2 * w := by
  have hb' : |((-b : ℚ) : ℝ)| ≤ 1 := by push_cast; rwa [abs_neg]
  have h2' : |((-b : ℚ) : ℝ) - -B| ≤ f := by
    push_cast
    rwa [neg_sub_neg, abs_sub_comm]
  have := add_err ha hb' h1 h2'
  rwa [← sub_eq_add_neg, ← sub_eq_add_neg] at this

/-- The difference of two longitudes in radians. -/
theorem diff_err {x y : ℚ} (h : |(y : ℝ) - x| ≤ 360) : |(radians (fl (y - x)) : ℝ) - rad (y - x)| ≤ 13 * w := by
  have hw := w_pos
  have hle := w_le
  have c := fl_err_real (y - x)
  push_cast at c
  have c' : |(fl (y - x) : ℝ) - (y - x)| ≤ 181 * w := by
    have := mul_le_mul_of_nonneg_right h (by linarith : (0 : ℝ) ≤ w / 2)
    linarith
  have d1 : |(fl (y - x) : ℝ)| ≤ 361 := by
    have := abs_sub_abs_le_abs_sub (fl (y - x) : ℝ) ((y : ℝ) - x)
    linarith
  have d := radians_err d1
  have r1 : |rad (fl (y - x) : ℝ) - rad (y - x)| ≤ 4 * w := by
    rw [← rad_sub]
    have := rad_abs c'
    linarith
  have := abs_sub_le (radians (fl (y - x)) : ℝ) (rad (fl (y - x) : ℝ)) (rad (y - x))
  linarith

/-- The direction of a vector whose coordinates have errors, up to whole turns. -/
theorem atan2_close {x y X Y e f n : ℝ} (hn : 0 < n) (h : n ^ 2 ≤ X ^ 2 + Y ^ 2) (hx : |x - X| ≤ e) (hy : |y - Y| ≤ f) (hs : e + f ≤ n / 2) :
    ∃ k : ℤ, |Coral.atan2 y x - (Coral.atan2 Y X + 2 * Real.pi * k)| ≤ 2 * (e + f) / n := by
  obtain ⟨z, hz⟩ : ∃ z : ℂ, z = ⟨X, Y⟩ := ⟨_, rfl⟩
  obtain ⟨z', hz'⟩ : ∃ z : ℂ, z = ⟨x, y⟩ := ⟨_, rfl⟩
  have nz : n ≤ ‖z‖ := by
    refine abs_le_of_sq_le_sq' ?_ (norm_nonneg _) |>.2
    rw [← Complex.normSq_eq_norm_sq, hz, Complex.normSq_mk]
    linarith
  have z0 : z ≠ 0 := norm_pos_iff.mp (hn.trans_le nz)
  have dz : ‖z' - z‖ ≤ e + f := by
    refine (Complex.norm_le_abs_re_add_abs_im _).trans ?_
    rw [hz, hz']
    simp only [Complex.sub_re, Complex.sub_im]
    linarith
  obtain ⟨q, hq⟩ : ∃ q, q = z' / z := ⟨_, rfl⟩
  have q1 : ‖q - 1‖ ≤ (e + f) / n := by
    have : q - 1 = (z' - z) / z := by rw [hq]; field_simp
    rw [this, norm_div]
    have ef : 0 ≤ e + f := (norm_nonneg _).trans dz
    exact div_le_div₀ ef dz hn nz
  have half : (e + f) / n ≤ 1 / 2 := by
    rw [div_le_iff₀ hn]
    linarith
  have qr := (Complex.abs_re_le_norm (q - 1)).trans q1
  have qi := (Complex.abs_im_le_norm (q - 1)).trans q1
  simp only [Complex.sub_re, Complex.sub_im, Complex.one_re, Complex.one_im, sub_zero] at qr qi
  have re : 1 / 2 ≤ q.re := by linarith [(abs_le.mp qr).1]
  have q0 : q ≠ 0 := by
    intro hc
    rw [hc] at re
    norm_num at re
  have zq : z' = q * z := by rw [hq]; field_simp
  have ang := Complex.arg_mul_coe_angle q0 z0
  rw [← zq, ← Real.Angle.coe_add, Real.Angle.angle_eq_iff_two_pi_dvd_sub] at ang
  obtain ⟨k, hk⟩ := ang
  refine ⟨k, ?_⟩
  have e1 : Coral.atan2 y x = z'.arg := by rw [hz']; rfl
  have e2 : Coral.atan2 Y X = z.arg := by rw [hz]; rfl
  rw [e1, e2, show z'.arg - (z.arg + 2 * Real.pi * k) = q.arg by linarith]
  have lt : |q.arg| < Real.pi / 2 := Complex.abs_arg_lt_pi_div_two_iff.mpr (Or.inl (by linarith))
  have tan : |q.arg| ≤ |Real.tan q.arg| := by
    have h2 := abs_lt.mp lt
    rcases le_total 0 q.arg with h | h
    · rw [abs_of_nonneg h]
      exact (Real.le_tan h h2.2).trans (le_abs_self _)
    · have := Real.le_tan (x := -q.arg) (by linarith) (by linarith)
      rw [Real.tan_neg] at this
      rw [abs_of_nonpos h]
      exact this.trans (neg_le_abs _)
  refine tan.trans ?_
  rw [Complex.tan_arg, abs_div, abs_of_pos (by linarith : 0 < q.re), div_le_iff₀ (by linarith)]
  have ef : 0 ≤ (e + f) / n := (abs_nonneg _).trans qi
  have : 2 * (e + f) / n * q.re = (e + f) / n * (2 * q.re) := by ring
  rw [this]
  nlinarith

theorem atan2_abs (y x : ℝ) : |Coral.atan2 y x| ≤ Real.pi := Complex.abs_arg_le_pi _

/-- The rounded direction. -/
theorem atan2_err {m : Libm} (hm : m.Rounds) {x y : ℚ} {X Y e f n : ℝ} (hn : 0 < n) (h : n ^ 2 ≤ X ^ 2 + Y ^ 2) (hx : |(x : ℝ) - X| ≤ e) (hy : |(y : ℝ) - Y| ≤ f)
    (hs : e + f ≤ n / 2) : ∃ k : ℤ, |(m.atan2 y x : ℝ) - (Coral.atan2 Y X + 2 * Real.pi * k)| ≤ 2 * (e + f) / n + 3 * w := by
  have hw := w_pos
  obtain ⟨k, hk⟩ := atan2_close hn h hx hy hs
  refine ⟨k, ?_⟩
  have a := near_err (hm.atan2 y x)
  have b := atan2_abs y x
  have hp := Real.pi_lt_d2
  have c := mul_le_mul_of_nonneg_right (b.trans (by linarith : Real.pi ≤ 4)) (by linarith : (0 : ℝ) ≤ w / 2)
  have := abs_sub_le (m.atan2 y x : ℝ) (Coral.atan2 y x) (Coral.atan2 Y X + 2 * Real.pi * k)
  linarith

/-- `atan2` does not exceed `math.pi`. -/
theorem atan2_range {m : Libm} (hm : m.Rounds) (y x : ℚ) : |m.atan2 y x| ≤ piD := by
  have key : ∀ {t : ℝ} {r : ℚ}, Nearest t r → |t| ≤ Real.pi → r ≤ piD := by
    intro t r hr ht
    by_contra hc
    push Not at hc
    obtain ⟨m, e, hm, he, hre⟩ := hr.1
    have p3 := piD_bounds.1
    obtain ⟨i, hi⟩ := double_grid (E := -51) hm hre (Or.inr (by rw [abs_of_pos (by linarith)]; norm_num; linarith))
    have hp : piD = (7074237752028440 : ℤ) * 2 ^ (-51 : ℤ) := by rw [piD]; norm_num
    have hpos : (0 : ℚ) < 2 ^ (-51 : ℤ) := by positivity
    have lt : (7074237752028440 : ℤ) < i := by
      by_contra h
      push Not at h
      have h' : (i : ℚ) ≤ (7074237752028440 : ℤ) := by exact_mod_cast h
      have := mul_le_mul_of_nonneg_right h' hpos.le
      rw [← hi, ← hp] at this
      linarith
    have le : ((7074237752028440 : ℤ) : ℚ) + 1 ≤ i := by exact_mod_cast lt
    have gap := mul_le_mul_of_nonneg_right le hpos.le
    rw [← hi, add_mul, ← hp, one_mul] at gap
    have gap' : ((piD + 2 ^ (-51 : ℤ) : ℚ) : ℝ) ≤ r := Rat.cast_le.mpr gap
    push_cast at gap'
    have e51 : (2 : ℝ) ^ (-51 : ℤ) = 2 * w := by rw [w_eq]; norm_num
    rw [e51] at gap'
    have near := hr.2 piD piD_double
    have pe := (abs_le.mp piD_err).1
    have ht' := (abs_le.mp ht).2
    have hw := w_pos
    have lo : (r : ℝ) - t ≤ |(piD : ℝ) - t| := (le_abs_self _).trans near
    rcases le_total (piD : ℝ) t with h | h
    · rw [abs_of_nonpos (by linarith)] at lo
      have : Real.pi - piD < w := by
        have h1 := Real.pi_lt_d20
        rw [w_eq, piD]
        push_cast
        norm_num at h1 ⊢
        linarith
      linarith
    · rw [abs_of_nonneg (by linarith)] at lo
      linarith
  have b := atan2_abs y x
  rw [abs_le]
  refine ⟨?_, key (hm.atan2 y x) b⟩
  have := key (nearest_neg' (hm.atan2 y x)) (by rwa [abs_neg])
  linarith

theorem degrees_turns (X : ℝ) (k : ℤ) : deg (X + 2 * Real.pi * k) = deg X + 360 * k := by
  have := Real.pi_ne_zero
  rw [deg, deg]
  field_simp
  ring

/-- Degrees of angles up to 10 radians. -/
theorem degrees_err_ten {x : ℚ} {X e : ℝ} (h : |(x : ℝ) - X| ≤ e) (hX : |X| ≤ 10) (he : e ≤ 1 / 100) : |(degrees x : ℝ) - deg X| ≤ 58 * e + 900 * w := by
  have hw := w_pos
  have hle := w_le
  have hp := Real.pi_gt_d2
  have c := perRadian_err
  have d0 : 180 / Real.pi ≤ 57.33 := by
    rw [div_le_iff₀ (by linarith)]
    linarith
  have d1 : 0 < 180 / Real.pi := by positivity
  have cb : |(perRadian : ℝ)| ≤ 57.34 := by
    have := abs_sub_abs_le_abs_sub (perRadian : ℝ) (180 / Real.pi)
    rw [abs_of_pos d1] at this
    linarith
  have e0 : 0 ≤ e := (abs_nonneg _).trans h
  have s : |((x * perRadian : ℚ) : ℝ) - deg X| ≤ 57.34 * e + 500 * w := by
    push_cast
    rw [deg, show (x : ℝ) * perRadian - X * 180 / Real.pi = (x - X) * perRadian + X * (perRadian - 180 / Real.pi) by ring]
    refine (abs_add_le _ _).trans ?_
    rw [abs_mul, abs_mul]
    have k1 := mul_le_mul h cb (abs_nonneg _) e0
    have k2 := mul_le_mul hX c (abs_nonneg _) (by norm_num)
    linarith
  have B : |deg X| ≤ 574 := by
    rw [deg, show X * 180 / Real.pi = X * (180 / Real.pi) by ring, abs_mul, abs_of_pos d1]
    have := mul_le_mul hX d0 d1.le (by norm_num)
    linarith
  have := fl_step s B (by linarith)
  rw [degrees]
  linarith

theorem piD_real : (piD : ℝ) ≤ 3.15 := by
  have := piD_lt
  have := Real.pi_lt_d2
  linarith

/-- Degrees of an angle between -π and π that is right up to whole turns. -/
theorem degrees_mod {x : ℚ} {X e : ℝ} {k : ℤ} (h : |(x : ℝ) - (X + 2 * Real.pi * k)| ≤ e) (hx : |x| ≤ piD) (he : e ≤ 1 / 100) :
    |degrees x| ≤ 180 ∧ |(degrees x : ℝ) - (deg X + 360 * k)| ≤ 58 * e + 320 * w := by
  have hb := abs_le.mp hx
  refine ⟨degrees_range hb.1 hb.2, ?_⟩
  rw [← degrees_turns]
  refine degrees_err h ?_ he
  have h1 := abs_sub_abs_le_abs_sub (X + 2 * Real.pi * k) (x : ℝ)
  rw [abs_sub_comm] at h1
  have h2 : |(x : ℝ)| ≤ piD := by exact_mod_cast hx
  have := piD_real
  linarith

/-- The loops of `corangle` end for every angle in use. -/
theorem corangle_any {a : ℚ} {A e : ℝ} (ha : |(fl a : ℝ) - A| ≤ e) (hA : |A| ≤ 60) (he : e ≤ 1) :
    ∃ v, CorangleEnds (fl a) v ∧ (∀ v', CorangleEnds (fl a) v' → v' = v) ∧ |v| ≤ piD ∧ ∃ k : ℤ, |(v : ℝ) - (A + 2 * Real.pi * k)| ≤ e + 50 * w := by
  have big : |fl a| ≤ 64 := by
    have a1 := abs_sub_abs_le_abs_sub (fl a : ℝ) A
    have : |(fl a : ℝ)| ≤ 64 := by linarith
    exact_mod_cast this
  obtain ⟨h1, h2⟩ := C164_ends _ (fl_double a)
  obtain ⟨v, hv⟩ := h1.mpr (big.trans (by norm_num))
  obtain ⟨v0, v1, -, u⟩ := h2 v hv
  obtain ⟨k, -, k1, k2⟩ := C164_turns _ v (fl_double _) big hv
  refine ⟨v, hv, u, abs_le.mpr ⟨v0, v1⟩, k, ?_⟩
  have k3 := turn_err (k := k) (by exact_mod_cast k1)
  have := abs_sub_le (v : ℝ) (fl a + 2 * Real.pi * k) (A + 2 * Real.pi * k)
  rw [add_sub_add_right_eq_sub] at this
  linarith

/-! ### Bearings -/

/-- C180: bearings are right, up to whole turns and up to 2⁻³⁸ degrees divided by the sine of the distance; they are between -180 and 180. -/
theorem C180_bearing (m : Libm) (hm : m.Rounds) (lon1 lat1 lon2 lat2 : ℚ) (h1 : |lat1| ≤ 90) (h2 : |lat2| ≤ 90) (hl : |lon1 - lon2| ≤ 360)
    (ha : 2 ^ (-36 : ℤ) ≤ Real.sin (arc lon1 lat1 lon2 lat2)) :
    |bearing m lon1 lat1 lon2 lat2| ≤ 180 ∧
      ∃ k : ℤ, |(bearing m lon1 lat1 lon2 lat2 : ℝ) - (Sph.bearing lon1 lat1 lon2 lat2 + 360 * k)| ≤ 2 ^ (-38 : ℤ) / Real.sin (arc lon1 lat1 lon2 lat2) := by
  have hw := w_pos
  have hle := w_le
  have h1' := abs_real h1
  have h2' := abs_real h2
  have hl' := abs_real hl
  push_cast at h1' h2' hl'
  obtain ⟨s1, s1'⟩ := sin_err hm (radians_err (x := lat1) (by linarith))
  obtain ⟨s2, s2'⟩ := sin_err hm (radians_err (x := lat2) (by linarith))
  obtain ⟨c1, c1'⟩ := cos_err hm (radians_err (x := lat1) (by linarith))
  obtain ⟨c2, c2'⟩ := cos_err hm (radians_err (x := lat2) (by linarith))
  obtain ⟨sd, sd'⟩ := sin_err hm (diff_err hl')
  obtain ⟨cd, cd'⟩ := cos_err hm (diff_err hl')
  obtain ⟨y, -⟩ := mul_err sd' c2' (Real.abs_sin_le_one _) sd c2
  obtain ⟨x1, x1'⟩ := mul_err c1' s2' (Real.abs_cos_le_one _) c1 s2
  obtain ⟨x2, x2'⟩ := mul_err s1' c2' (Real.abs_sin_le_one _) s1 c2
  have hA : |Real.sin (rad lat1) * Real.cos (rad lat2)| ≤ 1 := by
    rw [abs_mul]
    exact mul_le_one₀ (Real.abs_sin_le_one _) (abs_nonneg _) (Real.abs_cos_le_one _)
  obtain ⟨x3, x3'⟩ := mul_err x2' cd' hA x2 cd
  have x := (sub_err x1' x3' x1 x3).trans (by linarith : _ ≤ 59 * w)
  replace y := y.trans (by linarith : _ ≤ 25 * w)
  obtain ⟨S, hS⟩ : ∃ S, S = Real.sin (arc lon1 lat1 lon2 lat2) := ⟨_, rfl⟩
  have norm := Sph.sin_arc_sq lon1 lat1 lon2 lat2
  rw [← hS] at ha norm ⊢
  have hS1 : S ≤ 1 := hS ▸ Real.sin_le_one _
  have hS0 : 0 < S := lt_of_lt_of_le (by positivity) ha
  have e36 : (2 : ℝ) ^ (-36 : ℤ) = 65536 * w := by rw [w_eq]; norm_num
  have e38 : (2 : ℝ) ^ (-38 : ℤ) = 16384 * w := by rw [w_eq]; norm_num
  rw [e36] at ha
  rw [e38]
  obtain ⟨k, hk⟩ := atan2_err hm hS0 norm.ge x y (by linarith)
  obtain ⟨W, hW⟩ : ∃ W, W = w / S := ⟨_, rfl⟩
  have W1 : w ≤ W := by
    rw [hW, le_div_iff₀ hS0]
    nlinarith
  have W2 : W ≤ 1 / 65536 := by
    rw [hW, div_le_iff₀ hS0]
    linarith
  rw [show 2 * (59 * w + 25 * w) / S + 3 * w = 168 * W + 3 * w by rw [hW]; ring] at hk
  obtain ⟨r1, r2⟩ := degrees_mod hk (atan2_range hm _ _) (by linarith)
  refine ⟨r1, k, ?_⟩
  rw [show 16384 * w / S = 16384 * W by rw [hW]; ring]
  exact r2.trans (by linarith)

/-! ### Destinations -/

/-- The sine of an angle at most 89 degrees grows. -/
theorem sin_grows {α t : ℝ} (h : 1 / 90 ≤ Real.cos α) (h0 : 0 < t) (h1 : t ≤ 1 / 10000) : Real.sin α + t / 91 ≤ Real.sin (α + t) := by
  rw [Real.sin_add]
  have a := Real.sin_gt_sub_cube h0
  have b := Real.one_sub_sq_div_two_le_cos (x := t)
  have c := Real.cos_le_one t
  have d := Real.sin_le_one α
  have e : t * (1 - 1 / 10 ^ 8) ≤ Real.sin t := by
    have : t ^ 2 ≤ 1 / 10 ^ 8 := by nlinarith
    nlinarith
  have f : t * (1 - 1 / 10 ^ 8) * (1 / 90) ≤ Real.sin t * Real.cos α := mul_le_mul e h (by norm_num) ((by nlinarith : (0 : ℝ) ≤ t * (1 - 1 / 10 ^ 8)).trans e)
  have g : Real.sin α * (1 - Real.cos t) ≤ t ^ 2 / 2 := by nlinarith
  nlinarith

theorem cos_lat_large {lat : ℝ} (h : |lat| ≤ 89) : 1 / 90 ≤ Real.cos (rad lat) := by
  have hp := Real.pi_pos
  have b : |rad lat| ≤ 89 * Real.pi / 180 := by
    rw [rad, abs_div, abs_mul, abs_of_pos hp, abs_of_pos (by norm_num : (0 : ℝ) < 180)]
    gcongr
  have := Real.one_sub_mul_le_cos (x := |rad lat|) (abs_nonneg _) (by linarith)
  rw [Real.cos_abs] at this
  have e : 2 / Real.pi * |rad lat| ≤ 89 / 90 := by
    rw [div_mul_eq_mul_div, div_le_iff₀ hp]
    linarith
  linarith

theorem rad_lat_small {lat : ℝ} (h : |lat| ≤ 89) : |rad lat| ≤ Real.pi / 2 - 1 / 100 := by
  have hp := Real.pi_gt_d2
  have : |rad lat| ≤ 89 * Real.pi / 180 := by
    rw [rad, abs_div, abs_mul, abs_of_pos Real.pi_pos, abs_of_pos (by norm_num : (0 : ℝ) < 180)]
    gcongr
  linarith

theorem arcsin_above {lat s e : ℝ} (h : |lat| ≤ 89) (he : 0 < e) (he' : e ≤ 1 / 10 ^ 6) (hs : s ≤ Real.sin (rad lat) + e) :
    s ≤ 1 ∧ Real.arcsin s ≤ rad lat + 91 * e := by
  have g := sin_grows (cos_lat_large h) (t := 91 * e) (by linarith) (by linarith)
  have b := abs_le.mp (rad_lat_small h)
  have l : s ≤ Real.sin (rad lat + 91 * e) := by linarith
  refine ⟨l.trans (Real.sin_le_one _), ?_⟩
  rw [Real.arcsin_le_iff_le_sin' ⟨by linarith, by linarith⟩]
  exact l

/-- The arcsine of the sine of a latitude, with an error. -/
theorem arcsin_close {lat s e : ℝ} (h : |lat| ≤ 89) (he : 0 < e) (he' : e ≤ 1 / 10 ^ 6) (hs : |s - Real.sin (rad lat)| ≤ e) :
    |s| ≤ 1 ∧ |Real.arcsin s - rad lat| ≤ 91 * e := by
  obtain ⟨s0, s1⟩ := abs_le.mp hs
  obtain ⟨a, b⟩ := arcsin_above h he he' (s := s) (by linarith)
  have hn : rad (-lat) = -rad lat := by rw [rad, rad]; ring
  obtain ⟨c, d⟩ := arcsin_above (lat := -lat) (s := -s) (by rwa [abs_neg]) he he' (by rw [hn, Real.sin_neg]; linarith)
  rw [Real.arcsin_neg, hn] at d
  exact ⟨abs_le.mpr ⟨by linarith, a⟩, abs_le.mpr ⟨by linarith, by linarith⟩⟩

/-- C179: destinations up to a degree from the poles are right up to 2⁻³³ degrees of latitude and 2⁻²⁵ degrees of longitude, up to whole turns.
What is missing: starts and destinations nearer to the poles, see `C179_violated`. -/
theorem C179_close_partial (m : Libm) (hm : m.Rounds) (asin : ℚ → ℚ) (ha : RoundsAsin asin) (lon lat bear dist r : ℚ) (LON LAT : ℝ) (h0 : |lon| ≤ 360)
    (h1 : |lat| ≤ 89) (h2 : |bear| ≤ 360) (hr : 0 < r) (hd : |dist| ≤ 4 * r) (he : Sph.destination lon lat bear dist (some (r : ℝ)) = .ok (LON, LAT)) (h3 : |LAT| ≤ 89) :
    ∃ lon' lat', (∀ res, Destination m asin lon lat bear dist (some r) res ↔ res = .ok (lon', lat')) ∧
      |(lat' : ℝ) - LAT| ≤ 2 ^ (-33 : ℤ) ∧ |lon'| ≤ 180 ∧ ∃ k : ℤ, |(lon' : ℝ) - (LON + 360 * k)| ≤ 2 ^ (-25 : ℤ) := by
  have hw := w_pos
  have hle := w_tiny
  have h0' := abs_real h0
  have h1' := abs_real h1
  have h2' := abs_real h2
  push_cast at h0' h1' h2'
  have hr' : (0 : ℝ) < r := by exact_mod_cast hr
  -- the exact destination
  obtain ⟨D, hD⟩ : ∃ D : ℝ, D = dist / r := ⟨_, rfl⟩
  obtain ⟨S, hS⟩ : ∃ S : ℝ, S = Real.sin (rad lat) * Real.cos D + Real.cos (rad lat) * Real.sin D * Real.cos (rad bear) := ⟨_, rfl⟩
  obtain ⟨X, hX⟩ : ∃ X : ℝ, X = Real.cos D - Real.sin (rad lat) * S := ⟨_, rfl⟩
  obtain ⟨Y, hY⟩ : ∃ Y : ℝ, Y = Real.sin (rad bear) * Real.sin D * Real.cos (rad lat) := ⟨_, rfl⟩
  obtain ⟨hLAT, i, hLON⟩ : S = Real.sin (rad LAT) ∧ ∃ i : ℤ, LON = deg (rad lon - Coral.atan2 Y X) + 360 * i := by
    have e : Sph.destination lon lat bear dist (some (r : ℝ)) = (do
        let l ← rasin S
        return (deg (Proj.corangle (rad lon - Coral.atan2 Y (Real.cos D - Real.sin (rad lat) * Real.sin l))), deg l) : Py (ℝ × ℝ)) := by
      have q : rdiv (dist : ℝ) r = .ok D := by rw [rdiv, if_neg hr'.ne', hD]
      rw [Sph.destination, Sph.radius, hS, hY]
      change (do
        let d ← rdiv (dist : ℝ) r
        let l ← rasin (Real.sin (rad lat) * Real.cos d + Real.cos (rad lat) * Real.sin d * Real.cos (rad bear))
        return (deg (Proj.corangle (rad lon - Coral.atan2 (Real.sin (rad bear) * Real.sin d * Real.cos (rad lat)) (Real.cos d - Real.sin (rad lat) * Real.sin l))), deg l) :
          Py (ℝ × ℝ)) = _
      rw [q]
      rfl
    rw [e, rasin] at he
    split_ifs at he with hc
    · cases he
    · push Not at hc
      have he' := Except.ok.inj he
      simp only [Prod.mk.injEq] at he'
      rw [Real.sin_arcsin hc.1 hc.2, ← hX] at he'
      obtain ⟨i, hi⟩ := Proj.corangle_turns (rad lon - Coral.atan2 Y X)
      refine ⟨?_, i, ?_⟩
      · rw [← he'.2, rad_deg, Real.sin_arcsin hc.1 hc.2]
      · rw [← he'.1, hi, degrees_turns]
  -- the distance as an angle
  have hDb : |D| ≤ 4 := by
    rw [hD, abs_div, abs_of_pos hr', div_le_iff₀ hr']
    exact_mod_cast hd
  have dd : |(fl (dist / r) : ℝ) - D| ≤ 3 * w := by
    have := fl_err_real (dist / r)
    push_cast at this
    rw [← hD] at this
    have := mul_le_mul_of_nonneg_right hDb (by linarith : (0 : ℝ) ≤ w / 2)
    linarith
  obtain ⟨d, hd'⟩ : ∃ d, d = fl (dist / r) := ⟨_, rfl⟩
  rw [← hd'] at dd
  obtain ⟨sl, sl'⟩ := sin_err hm (radians_err (x := lat) (by linarith))
  obtain ⟨cl, cl'⟩ := cos_err hm (radians_err (x := lat) (by linarith))
  obtain ⟨sb, sb'⟩ := sin_err hm (radians_err (x := bear) (by linarith))
  obtain ⟨cb, cb'⟩ := cos_err hm (radians_err (x := bear) (by linarith))
  obtain ⟨sd, sd'⟩ := sin_err hm dd
  obtain ⟨cd, cd'⟩ := cos_err hm dd
  have one : ∀ {a b : ℝ}, |a| ≤ 1 → |b| ≤ 1 → |a * b| ≤ 1 := by
    intro a b ha hb
    rw [abs_mul]
    exact mul_le_one₀ ha (abs_nonneg _) hb
  obtain ⟨t1, t1'⟩ := mul_err sl' cd' (Real.abs_sin_le_one _) sl cd
  obtain ⟨t2, t2'⟩ := mul_err cl' sd' (Real.abs_cos_le_one _) cl sd
  obtain ⟨t3, t3'⟩ := mul_err t2' cb' (one (Real.abs_cos_le_one _) (Real.abs_sin_le_one _)) t2 cb
  have ss : |(destSin m lat bear d : ℝ) - S| ≤ 43 * w := by
    rw [hS, destSin]
    exact (add_err t1' t3' t1 t3).trans (by linarith)
  obtain ⟨s, hs⟩ : ∃ s, s = destSin m lat bear d := ⟨_, rfl⟩
  rw [← hs] at ss
  -- the latitude
  obtain ⟨b1, as⟩ := arcsin_close (e := 43 * w) h3 (by linarith) (by linarith) (by rwa [← hLAT])
  have b1q : |s| ≤ 1 := by exact_mod_cast b1
  obtain ⟨b2, b3⟩ := abs_le.mp b1q
  have near := near_err (ha s b2 b3)
  have hp := Real.pi_lt_d2
  have near' : |(asin s : ℝ) - Real.arcsin s| ≤ 2 * w := by
    have : |Real.arcsin (s : ℝ)| ≤ 2 := abs_le.mpr ⟨by linarith [Real.neg_pi_div_two_le_arcsin (s : ℝ)], by linarith [Real.arcsin_le_pi_div_two (s : ℝ)]⟩
    have := mul_le_mul_of_nonneg_right this (by linarith : (0 : ℝ) ≤ w / 2)
    linarith
  have la : |(asin s : ℝ) - rad LAT| ≤ 3920 * w := by
    have := abs_sub_le (asin s : ℝ) (Real.arcsin s) (rad LAT)
    linarith
  have ok : pyAsin asin s = .ok (asin s) := by
    rw [pyAsin, if_neg]
    push Not
    exact ⟨b2, b3⟩
  -- the longitude
  obtain ⟨sa, sa'⟩ := sin_err hm near'
  rw [Real.sin_arcsin (abs_le.mp b1).1 (abs_le.mp b1).2] at sa
  have sa2 : |(m.sin (asin s) : ℝ) - S| ≤ 46 * w := by
    have := abs_sub_le (m.sin (asin s) : ℝ) s S
    linarith
  obtain ⟨u1, u1'⟩ := mul_err sl' sa' (Real.abs_sin_le_one _) sl sa2
  have x := (sub_err cd' u1' cd u1).trans (by linarith : _ ≤ 63 * w)
  obtain ⟨v1, v1'⟩ := mul_err sb' sd' (Real.abs_sin_le_one _) sb sd
  obtain ⟨v2, -⟩ := mul_err v1' cl' (one (Real.abs_sin_le_one _) (Real.abs_sin_le_one _)) v1 cl
  have y := v2.trans (by linarith : _ ≤ 26 * w)
  rw [← hX] at x
  rw [← hY] at y
  have norm : X ^ 2 + Y ^ 2 = Real.cos (rad lat) ^ 2 * Real.cos (rad LAT) ^ 2 := by
    have e1 := Real.sin_sq_add_cos_sq (rad lat)
    have e2 := Real.sin_sq_add_cos_sq D
    have e3 := Real.sin_sq_add_cos_sq (rad bear)
    rw [Real.cos_sq' (rad LAT), ← hLAT, hX, hY]
    clear hX hY x y hLON
    rw [hS]
    generalize Real.sin (rad lat) = a at *
    generalize Real.cos (rad lat) = b at *
    generalize Real.sin D = q at *
    generalize Real.cos D = c at *
    generalize Real.sin (rad bear) = l at *
    generalize Real.cos (rad bear) = k at *
    have hl : l ^ 2 = 1 - k ^ 2 := by linarith
    have hq : q ^ 2 = 1 - c ^ 2 := by linarith
    have hb : a ^ 2 = 1 - b ^ 2 := by linarith
    have main : c - a * (a * c + b * q * k) = b * (b * c - a * q * k) := by linear_combination (-c) * hb
    rw [main]
    linear_combination b ^ 2 * q ^ 2 * hl + b ^ 2 * hq + b ^ 2 * (c ^ 2 + q ^ 2 * k ^ 2) * hb
  have c1 := cos_lat_large h1'
  have c2 := cos_lat_large h3
  have n2 : (1 / 8100 : ℝ) ^ 2 ≤ X ^ 2 + Y ^ 2 := by
    rw [norm, ← mul_pow]
    have : (1 / 90 : ℝ) * (1 / 90) ≤ Real.cos (rad lat) * Real.cos (rad LAT) := mul_le_mul c1 c2 (by norm_num) (by linarith)
    exact pow_le_pow_left₀ (by norm_num) (by linarith) 2
  obtain ⟨k, hk⟩ := atan2_err hm (by norm_num) n2 x y (by linarith)
  have hk' : |(destLon m lat bear d (asin s) : ℝ) - (Coral.atan2 Y X + 2 * Real.pi * k)| ≤ 1441803 * w := by
    rw [destLon]
    exact hk.trans (by linarith)
  have rl := radians_err (x := lon) (by linarith)
  have dl : |(destLon m lat bear d (asin s) : ℝ)| ≤ 3.15 := by
    have h := atan2_range hm (fl (fl (m.sin (radians bear) * m.sin d) * m.cos (radians lat))) (fl (m.cos d - fl (m.sin (radians lat) * m.sin (asin s))))
    have h' : |(destLon m lat bear d (asin s) : ℝ)| ≤ piD := by
      rw [destLon]
      exact_mod_cast h
    exact h'.trans piD_real
  have rb : |rad (lon : ℝ)| ≤ 7.3 := by
    have := rad_abs h0'
    linarith
  have A : |(fl (radians lon - destLon m lat bear d (asin s)) : ℝ) - (rad lon - (Coral.atan2 Y X + 2 * Real.pi * k))| ≤ 1441820 * w ∧
      |rad lon - (Coral.atan2 Y X + 2 * Real.pi * k)| ≤ 11 := by
    have B : |rad lon - (Coral.atan2 Y X + 2 * Real.pi * k)| ≤ 11 := by
      have q1 := abs_sub_abs_le_abs_sub (Coral.atan2 Y X + 2 * Real.pi * k) (destLon m lat bear d (asin s) : ℝ)
      rw [abs_sub_comm] at q1
      have q2 := abs_sub (rad (lon : ℝ)) (Coral.atan2 Y X + 2 * Real.pi * k)
      linarith
    refine ⟨?_, B⟩
    have st : |((radians lon - destLon m lat bear d (asin s) : ℚ) : ℝ) - (rad lon - (Coral.atan2 Y X + 2 * Real.pi * k))| ≤ 1441812 * w := by
      push_cast
      rw [sub_sub_sub_comm]
      exact (abs_sub _ _).trans (by linarith)
    exact (fl_step st B (by linarith)).trans (by linarith)
  obtain ⟨v, hv, hu, hvp, j, hj⟩ := corangle_any A.1 (A.2.trans (by norm_num)) (by linarith)
  have hj' : |(v : ℝ) - (rad lon - Coral.atan2 Y X + 2 * Real.pi * (j - k : ℤ))| ≤ 1441870 * w := by
    have : rad (lon : ℝ) - Coral.atan2 Y X + 2 * Real.pi * (j - k : ℤ) = rad lon - (Coral.atan2 Y X + 2 * Real.pi * k) + 2 * Real.pi * j := by
      push_cast
      ring
    rw [this]
    linarith
  obtain ⟨g1, g2⟩ := degrees_mod hj' hvp (by linarith)
  refine ⟨degrees v, degrees (asin s), ?_, ?_, g1, j - k - i, ?_⟩
  · intro res
    have e : destAngles m asin lat bear dist (some r) = .ok (asin s, destLon m lat bear d (asin s)) := by
      rw [destAngles]
      change (do
        let d ← div dist r
        let lat' ← pyAsin asin (destSin m lat bear d)
        return (lat', destLon m lat bear d lat') : Py (ℚ × ℚ)) = _
      rw [div_ok hr.ne']
      change (do
        let lat' ← pyAsin asin (destSin m lat bear (fl (dist / r)))
        return (lat', destLon m lat bear (fl (dist / r)) lat') : Py (ℚ × ℚ)) = _
      rw [← hd', ← hs, ok]
      rfl
    rw [Destination, e]
    constructor
    · rintro ⟨v', q1, q2⟩
      rwa [hu v' q1] at q2
    · rintro rfl
      exact ⟨v, hv, rfl⟩
  · have hb := rad_lat_small h3
    have := degrees_err la (by linarith) (by linarith)
    rw [deg_rad] at this
    have e33 : (2 : ℝ) ^ (-33 : ℤ) = 524288 * w := by rw [w_eq]; norm_num
    rw [e33]
    exact this.trans (by linarith)
  · have e25 : (2 : ℝ) ^ (-25 : ℤ) = 134217728 * w := by rw [w_eq]; norm_num
    rw [e25, hLON]
    have : deg (rad lon - Coral.atan2 Y X) + 360 * (i : ℝ) + 360 * ((j - k - i : ℤ) : ℝ) = deg (rad lon - Coral.atan2 Y X) + 360 * ((j - k : ℤ) : ℝ) := by
      push_cast
      ring
    rw [this]
    exact g2.trans (by linarith)

/-- C179: with correctly rounded functions `destination(0, 8, 0, math.radians(82), 1)` raises `ValueError`: the destination is the north pole, up to rounding;
without rounding the call returns. -/
theorem C179_violated (m : Libm) (hm : m.Rounds) (asin : ℚ → ℚ) (res : Py (ℚ × ℚ)) :
    (Destination m asin 0 8 0 (radians 82) (some 1) res ↔ res = .error .valueError) ∧
      ∃ p, Sph.destination 0 8 0 (radians 82 : ℚ) (some 1) = .ok p := by
  constructor
  · have e1 : radians 8 = 5030569068109113 / 36028797018963968 := eight.1
    have e2 : fl (radians 82 / 1) = 6445416618514801 / 4503599627370496 := by decide +kernel
    have c1 : m.cos (5030569068109113 / 36028797018963968) = 4459770905381437 / 4503599627370496 :=
      cos_eq hm _ _ (1 / 10 ^ 22) 8 (by decide +kernel) (by decide +kernel) (by decide +kernel) (by decide +kernel)
    have s1 : m.sin (5030569068109113 / 36028797018963968) = 5014239404989977 / 36028797018963968 :=
      sin_eq hm _ _ (1 / 10 ^ 22) 8 (by decide +kernel) (by decide +kernel) (by decide +kernel) (by decide +kernel)
    have c2 : m.cos (6445416618514801 / 4503599627370496) = 2507119702494989 / 18014398509481984 :=
      cos_eq hm _ _ (1 / 10 ^ 22) 14 (by decide +kernel) (by decide +kernel) (by decide +kernel) (by decide +kernel)
    have s2 : m.sin (6445416618514801 / 4503599627370496) = 4459770905381437 / 4503599627370496 :=
      sin_eq hm _ _ (1 / 10 ^ 22) 14 (by decide +kernel) (by decide +kernel) (by decide +kernel) (by decide +kernel)
    have h : destSin m 8 0 (6445416618514801 / 4503599627370496) = 1 + 2 ^ (-52 : ℤ) := by
      rw [destSin, e1, radians_zero, cos_zero hm, c1, s1, c2, s2]
      decide +kernel
    have e : destAngles m asin 8 0 (radians 82) (some 1) = .error .valueError := by
      rw [destAngles]
      change (do
        let d ← div (radians 82) 1
        let lat' ← pyAsin asin (destSin m 8 0 d)
        return (lat', destLon m 8 0 d lat') : Py (ℚ × ℚ)) = _
      rw [div_ok one_ne_zero, e2]
      change (do
        let lat' ← pyAsin asin (destSin m 8 0 (6445416618514801 / 4503599627370496))
        return (lat', destLon m 8 0 (6445416618514801 / 4503599627370496) lat') : Py (ℚ × ℚ)) = _
      rw [h, pyAsin, if_pos (Or.inr (by norm_num))]
      rfl
    rw [Destination, e]
  · have q : rdiv ((radians 82 : ℚ) : ℝ) 1 = .ok ((radians 82 : ℚ) : ℝ) := by rw [rdiv, if_neg one_ne_zero, div_one]
    generalize ((radians 82 : ℚ) : ℝ) = D at *
    have s : Real.sin (rad 8) * Real.cos D + Real.cos (rad 8) * Real.sin D * Real.cos (rad 0) = Real.sin (rad 8 + D) := by
      rw [show rad 0 = 0 by rw [rad]; ring, Real.cos_zero, mul_one, Real.sin_add]
    rw [Sph.destination, Sph.radius]
    change ∃ p, (do
        let d ← rdiv D 1
        let l ← rasin (Real.sin (rad 8) * Real.cos d + Real.cos (rad 8) * Real.sin d * Real.cos (rad 0))
        return (deg (Proj.corangle (rad 0 - Coral.atan2 (Real.sin (rad 0) * Real.sin d * Real.cos (rad 8)) (Real.cos d - Real.sin (rad 8) * Real.sin l))), deg l) :
          Py (ℝ × ℝ)) = .ok p
    rw [q]
    change ∃ p, (do
        let l ← rasin (Real.sin (rad 8) * Real.cos D + Real.cos (rad 8) * Real.sin D * Real.cos (rad 0))
        return (deg (Proj.corangle (rad 0 - Coral.atan2 (Real.sin (rad 0) * Real.sin D * Real.cos (rad 8)) (Real.cos D - Real.sin (rad 8) * Real.sin l))), deg l) :
          Py (ℝ × ℝ)) = .ok p
    rw [s, rasin, if_neg]
    · exact ⟨_, rfl⟩
    · push Not
      exact ⟨Real.neg_one_le_sin _, Real.sin_le_one _⟩

/-! ### Midpoints -/

/-- C181: `midpoint` returns for all positions. -/
theorem C181_returns (m : Libm) (lon1 lat1 lon2 lat2 : ℚ) : ∃ p, midpoint m lon1 lat1 lon2 lat2 = .ok p := by
  rw [midpoint]
  simp only
  rw [sqrt_ok (fl_nonneg (add_nonneg (fl_nonneg (mul_self_nonneg _)) (fl_nonneg (mul_self_nonneg _))))]
  exact ⟨_, rfl⟩

/-- The distance of the sum of two positions (vectors of length 1) from the axis of the sphere, squared. -/
noncomputable def fromAxis (lon1 lat1 lon2 lat2 : ℝ) : ℝ :=
  (Real.cos (rad lat1) * Real.cos (rad lon1) + Real.cos (rad lat2) * Real.cos (rad lon2)) ^ 2 +
    (Real.cos (rad lat1) * Real.sin (rad lon1) + Real.cos (rad lat2) * Real.sin (rad lon2)) ^ 2

theorem fromAxis_eq (lon1 lat1 lon2 lat2 : ℝ) : fromAxis lon1 lat1 lon2 lat2 =
    (Real.cos (rad lat1) + Real.cos (rad lat2) * Real.cos (rad (lon2 - lon1))) ^ 2 + (Real.cos (rad lat2) * Real.sin (rad (lon2 - lon1))) ^ 2 := by
  rw [fromAxis, rad_sub, Real.cos_sub, Real.sin_sub]
  have h1 := Real.sin_sq_add_cos_sq (rad lon1)
  have h2 := Real.sin_sq_add_cos_sq (rad lon2)
  generalize Real.cos (rad lat1) = a
  generalize Real.cos (rad lat2) = b
  generalize Real.cos (rad lon1) = c at *
  generalize Real.sin (rad lon1) = s at *
  generalize Real.cos (rad lon2) = C at *
  generalize Real.sin (rad lon2) = S at *
  linear_combination (a ^ 2 - b ^ 2 * (S ^ 2 + C ^ 2)) * h1

theorem atan2_half {y x : ℝ} (h : 0 ≤ x) : |Coral.atan2 y x| ≤ Real.pi / 2 := Complex.abs_arg_le_pi_div_two_iff.mpr h

/-- Quotients of `w`. -/
theorem scales {h : ℝ} (h0 : 1 / 1024 ≤ h) (h3 : h ≤ 1) : ∃ W V, W = w / h ∧ V = w / h ^ 2 ∧ V = W / h ∧ w ≤ W ∧ W ≤ 1024 * w ∧ W ≤ V ∧ V ≤ 1024 * W := by
  have hw := w_pos
  have hpos : 0 < h := by linarith
  have key : ∀ x : ℝ, 0 < x → x ≤ x / h ∧ x / h ≤ 1024 * x := by
    intro x hx
    rw [le_div_iff₀ hpos, div_le_iff₀ hpos]
    constructor <;> nlinarith
  have k1 := key w hw
  have k2 := key (w / h) (by positivity)
  refine ⟨w / h, w / h ^ 2, rfl, rfl, ?_, k1.1, k1.2, ?_, ?_⟩
  · field_simp
  · rw [pow_two, ← div_div]; exact k2.1
  · rw [pow_two, ← div_div]; exact k2.2

/-- Between -90 and 90 degrees there are no whole turns. -/
theorem no_turn {a b e : ℝ} {k : ℤ} (ha : |a| ≤ 1.6) (hb : |b| ≤ Real.pi / 2) (h : |a - (b + 2 * Real.pi * k)| ≤ e) (he : e ≤ 1 / 100) : k = 0 := by
  have hp := Real.pi_lt_d2
  have hp3 := Real.pi_gt_d2
  obtain ⟨b1, b2⟩ := abs_le.mp ha
  obtain ⟨b3, b4⟩ := abs_le.mp hb
  obtain ⟨b5, b6⟩ := abs_le.mp h
  have k1 : (k : ℝ) < 1 := by
    by_contra hc
    push Not at hc
    have := mul_le_mul_of_nonneg_left hc (by linarith : 0 ≤ 2 * Real.pi)
    linarith
  have k2 : (-1 : ℝ) < k := by
    by_contra hc
    push Not at hc
    have := mul_le_mul_of_nonneg_left hc (by linarith : 0 ≤ 2 * Real.pi)
    linarith
  have k1' : k < 1 := by exact_mod_cast k1
  have k2' : -1 < k := by exact_mod_cast k2
  omega

theorem midpoint_lat {m : Libm} (hm : m.Rounds) {h C Y Z : ℝ} {fc fy fz fq : ℚ} (h0 : 1 / 1024 ≤ h) (h3 : h ≤ 1) (c : |(fc : ℝ) - C| ≤ 37 * w)
    (by1 : |(fy : ℝ) - Y| ≤ 25 * w) (by1' : |(fy : ℝ)| ≤ 1) (z : |(fz : ℝ) - Z| ≤ 22 * w) (CB : |C| ≤ 2) (YB : |Y| ≤ 1) (h4 : h ^ 2 ≤ C ^ 2 + Y ^ 2) (fq0 : 0 ≤ fq)
    (hfq : fq = fl (fl (fc * fc) + fl (fy * fy))) :
    |(degrees (m.atan2 fz (m.sqrt fq)) : ℝ) - deg (Coral.atan2 Z (√(C * C + Y * Y)))| ≤ 2 ^ (-37 : ℤ) / h ^ 2 := by
  have hw := w_pos
  have hle := w_tiny
  have hpos : 0 < h := by linarith
  have hp := Real.pi_lt_d2
  have hp3 := Real.pi_gt_d2
  obtain ⟨W, V, hW, hV, V0, W1, W2, V1, V2⟩ := scales h0 h3
  have q1 : |(fl (fc * fc) : ℝ) - C * C| ≤ 152 * w := by
    have cb : |(fc : ℝ)| ≤ 2 + 37 * w := by
      have := abs_sub_abs_le_abs_sub (fc : ℝ) C
      linarith
    have st : |((fc * fc : ℚ) : ℝ) - C * C| ≤ 148.5 * w := by
      push_cast
      rw [show (fc : ℝ) * fc - C * C = (fc - C) * (fc + C) by ring, abs_mul]
      have k1 : |(fc : ℝ) + C| ≤ 4 + 37 * w := (abs_add_le _ _).trans (by linarith)
      have k2 := mul_le_mul c k1 (abs_nonneg _) (by linarith)
      nlinarith
    have B : |C * C| ≤ 4 := by
      rw [abs_mul]
      have := mul_le_mul CB CB (abs_nonneg _) (by norm_num)
      linarith
    exact (fl_step st B (by linarith)).trans (by linarith)
  obtain ⟨q2, -⟩ := mul_err by1' by1' YB by1 by1
  have q : |(fq : ℝ) - (C * C + Y * Y)| ≤ 207 * w := by
    have st : |((fl (fc * fc) + fl (fy * fy) : ℚ) : ℝ) - (C * C + Y * Y)| ≤ 203 * w := by
      push_cast
      rw [add_sub_add_comm]
      exact (abs_add_le _ _).trans (by linarith)
    have B : |C * C + Y * Y| ≤ 5 := by
      refine (abs_add_le _ _).trans ?_
      rw [abs_mul, abs_mul]
      have := mul_le_mul CB CB (abs_nonneg _) (by norm_num)
      have := mul_le_mul YB YB (abs_nonneg _) (by norm_num)
      linarith
    rw [hfq]
    exact (fl_step st B (by linarith)).trans (by linarith)
  obtain ⟨Q, hQ⟩ : ∃ Q, Q = C * C + Y * Y := ⟨_, rfl⟩
  have Q1 : h ^ 2 ≤ Q := by rw [hQ]; linarith
  have Q5 : Q ≤ 5 := by
    obtain ⟨b1, b2⟩ := abs_le.mp CB
    obtain ⟨b3, b4⟩ := abs_le.mp YB
    rw [hQ]
    nlinarith
  rw [← hQ] at q ⊢
  have fqr : (0 : ℝ) ≤ fq := by exact_mod_cast fq0
  have root0 : h ≤ √Q := Real.le_sqrt_of_sq_le Q1
  have root : |√(fq : ℝ) - √Q| ≤ 207 * W := by
    have e : (√(fq : ℝ) - √Q) * (√(fq : ℝ) + √Q) = fq - Q := by
      have e1 := Real.mul_self_sqrt fqr
      have e2 := Real.mul_self_sqrt (by nlinarith : 0 ≤ Q)
      linear_combination e1 - e2
    have s0 := Real.sqrt_nonneg (fq : ℝ)
    have k : |√(fq : ℝ) - √Q| * h ≤ 207 * w := by
      refine le_trans ?_ q
      rw [← e, abs_mul, abs_of_nonneg (by linarith : 0 ≤ √(fq : ℝ) + √Q)]
      exact mul_le_mul_of_nonneg_left (by linarith) (abs_nonneg _)
    rw [hW, ← mul_div_assoc, le_div_iff₀ hpos]
    exact k
  have fr : |(m.sqrt fq : ℝ) - √Q| ≤ 207 * W + 2 * w := by
    have nr := near_err (show Nearest (√(fq : ℝ)) (m.sqrt fq) from ⟨(hm.sqrt fq fq0).1, (hm.sqrt fq fq0).2.2⟩)
    have s3 : |√(fq : ℝ)| ≤ 3 := by
      rw [abs_of_nonneg (Real.sqrt_nonneg _), Real.sqrt_le_left (by norm_num)]
      linarith [(abs_le.mp q).2]
    have := mul_le_mul_of_nonneg_right s3 (by linarith : (0 : ℝ) ≤ w / 2)
    have := abs_sub_le (m.sqrt fq : ℝ) (√(fq : ℝ)) (√Q)
    linarith
  have sq0 : 0 ≤ m.sqrt fq := (hm.sqrt fq fq0).2.1
  have n : h ^ 2 ≤ √Q ^ 2 + Z ^ 2 := by
    rw [Real.sq_sqrt (by nlinarith)]
    nlinarith [sq_nonneg Z]
  obtain ⟨k, hk⟩ := atan2_err hm hpos n fr z (by linarith)
  have hk' : |(m.atan2 fz (m.sqrt fq) : ℝ) - (Coral.atan2 Z (√Q) + 2 * Real.pi * k)| ≤ 465 * V := by
    refine hk.trans ?_
    have : 2 * (207 * W + 2 * w + 22 * w) / h = 414 * V + 48 * W := by
      rw [V0, hW]
      field_simp
      ring
    rw [this]
    linarith
  have k0 : k = 0 := by
    have a1 : |(m.atan2 fz (m.sqrt fq) : ℝ)| ≤ 1.6 := by
      have n1 := near_err (hm.atan2 fz (m.sqrt fq))
      have n2 := atan2_half (y := (fz : ℝ)) (x := (m.sqrt fq : ℝ)) (by exact_mod_cast sq0)
      have n3 := mul_le_mul_of_nonneg_right (n2.trans (by linarith : Real.pi / 2 ≤ 2)) (by linarith : (0 : ℝ) ≤ w / 2)
      have n4 := abs_sub_abs_le_abs_sub (m.atan2 fz (m.sqrt fq) : ℝ) (Coral.atan2 fz (m.sqrt fq))
      linarith
    have a2 := atan2_half (y := Z) (Real.sqrt_nonneg Q)
    exact no_turn a1 a2 hk' (by linarith)
  rw [k0, Int.cast_zero, mul_zero, add_zero] at hk'
  have a2 := atan2_half (y := Z) (Real.sqrt_nonneg Q)
  have := degrees_err hk' (by linarith) (by linarith)
  have e37 : (2 : ℝ) ^ (-37 : ℤ) = 32768 * w := by rw [w_eq]; norm_num
  rw [e37, show 32768 * w / h ^ 2 = 32768 * V by rw [hV]; ring]
  exact this.trans (by linarith)

theorem midpoint_lon {m : Libm} (hm : m.Rounds) {h C Y : ℝ} {fc fy lon1 : ℚ} (h0 : 1 / 1024 ≤ h) (h3 : h ≤ 1) (c : |(fc : ℝ) - C| ≤ 37 * w)
    (by1 : |(fy : ℝ) - Y| ≤ 25 * w) (h4 : h ^ 2 ≤ C ^ 2 + Y ^ 2) (l1' : |(lon1 : ℝ)| ≤ 360) :
    ∃ k : ℤ, |(degrees (fl (radians lon1 + m.atan2 fy fc)) : ℝ) - (deg (rad lon1 + Coral.atan2 Y C) + 360 * k)| ≤ 2 ^ (-38 : ℤ) / h := by
  have hw := w_pos
  have hle := w_tiny
  have hpos : 0 < h := by linarith
  have hp := Real.pi_lt_d2
  have hp3 := Real.pi_gt_d2
  obtain ⟨W, V, hW, hV, V0, W1, W2, V1, V2⟩ := scales h0 h3
  obtain ⟨k, hk⟩ := atan2_err hm hpos h4 c by1 (by linarith)
  have hk' : |(m.atan2 fy fc : ℝ) - (Coral.atan2 Y C + 2 * Real.pi * k)| ≤ 127 * W := by
    refine hk.trans ?_
    rw [show 2 * (37 * w + 25 * w) / h = 124 * W by rw [hW]; ring]
    linarith
  have dl : |(m.atan2 fy fc : ℝ)| ≤ 3.15 := by
    have h' : |(m.atan2 fy fc : ℝ)| ≤ piD := by exact_mod_cast atan2_range hm fy fc
    exact h'.trans piD_real
  have rl := radians_err (x := lon1) (by linarith)
  have rb : |rad (lon1 : ℝ)| ≤ 6.3 := by
    rw [rad, abs_div, abs_mul, abs_of_pos Real.pi_pos, abs_of_pos (by norm_num : (0 : ℝ) < 180), div_le_iff₀ (by norm_num)]
    nlinarith
  have B : |rad lon1 + (Coral.atan2 Y C + 2 * Real.pi * k)| ≤ 10 := by
    have q1 := abs_sub_abs_le_abs_sub (Coral.atan2 Y C + 2 * Real.pi * k) (m.atan2 fy fc : ℝ)
    rw [abs_sub_comm] at q1
    have q2 := abs_add_le (rad (lon1 : ℝ)) (Coral.atan2 Y C + 2 * Real.pi * k)
    linarith
  have st : |((radians lon1 + m.atan2 fy fc : ℚ) : ℝ) - (rad lon1 + (Coral.atan2 Y C + 2 * Real.pi * k))| ≤ 127 * W + 9 * w := by
    push_cast
    rw [add_sub_add_comm]
    exact (abs_add_le _ _).trans (by linarith)
  have A := (fl_step st B (by linarith)).trans (by linarith : _ ≤ 127 * W + 15 * w)
  have := degrees_err_ten A B (by linarith)
  refine ⟨k, ?_⟩
  have e38 : (2 : ℝ) ^ (-38 : ℤ) = 16384 * w := by rw [w_eq]; norm_num
  rw [e38, show 16384 * w / h = 16384 * W by rw [hW]; ring, ← degrees_turns, add_assoc]
  exact this.trans (by linarith)

/-- C181: midpoints are right up to 2⁻³⁷ / h² degrees of latitude and, up to whole turns, 2⁻³⁸ / h degrees of longitude,
where h is the distance of the sum of the positions from the axis: antipodes and midpoints near the poles have no exact bound. -/
theorem C181_close (m : Libm) (hm : m.Rounds) (lon1 lat1 lon2 lat2 : ℚ) (h : ℝ) (l1 : |lon1| ≤ 360) (hl : |lon2 - lon1| ≤ 360) (h1 : |lat1| ≤ 90) (h2 : |lat2| ≤ 90)
    (h0 : 1 / 1024 ≤ h) (h3 : h ≤ 1) (h4 : h ^ 2 ≤ fromAxis lon1 lat1 lon2 lat2) :
    ∃ lon lat, midpoint m lon1 lat1 lon2 lat2 = .ok (lon, lat) ∧ |(lat : ℝ) - (Sph.midpoint lon1 lat1 lon2 lat2).2| ≤ 2 ^ (-37 : ℤ) / h ^ 2 ∧
      ∃ k : ℤ, |(lon : ℝ) - ((Sph.midpoint lon1 lat1 lon2 lat2).1 + 360 * k)| ≤ 2 ^ (-38 : ℤ) / h := by
  have hw := w_pos
  have hle := w_tiny
  have l1' := abs_real l1
  have hl' := abs_real hl
  have h1' := abs_real h1
  have h2' := abs_real h2
  push_cast at l1' hl' h1' h2'
  have hpos : 0 < h := by linarith
  have hp := Real.pi_lt_d2
  have hp3 := Real.pi_gt_d2
  obtain ⟨s1, s1'⟩ := sin_err hm (radians_err (x := lat1) (by linarith))
  obtain ⟨s2, s2'⟩ := sin_err hm (radians_err (x := lat2) (by linarith))
  obtain ⟨c1, c1'⟩ := cos_err hm (radians_err (x := lat1) (by linarith))
  obtain ⟨c2, c2'⟩ := cos_err hm (radians_err (x := lat2) (by linarith))
  obtain ⟨sd, sd'⟩ := sin_err hm (diff_err hl')
  obtain ⟨cd, cd'⟩ := cos_err hm (diff_err hl')
  obtain ⟨bx, bx'⟩ := mul_err c2' cd' (Real.abs_cos_le_one _) c2 cd
  obtain ⟨by1, by1'⟩ := mul_err c2' sd' (Real.abs_cos_le_one _) c2 sd
  have c := (add_err c1' bx' c1 bx).trans (by linarith : _ ≤ 37 * w)
  have z := (add_err s1' s2' s1 s2).trans (by linarith : _ ≤ 22 * w)
  replace by1 := by1.trans (by linarith : _ ≤ 25 * w)
  rw [fromAxis_eq] at h4
  have one : ∀ {a b : ℝ}, |a| ≤ 1 → |b| ≤ 1 → |a * b| ≤ 1 := by
    intro a b ha hb
    rw [abs_mul]
    exact mul_le_one₀ ha (abs_nonneg _) hb
  have YB : |Real.cos (rad lat2) * Real.sin (rad (lon2 - lon1))| ≤ 1 := one (Real.abs_cos_le_one _) (Real.abs_sin_le_one _)
  have CB : |Real.cos (rad lat1) + Real.cos (rad lat2) * Real.cos (rad (lon2 - lon1))| ≤ 2 := by
    have := abs_add_le (Real.cos (rad lat1)) (Real.cos (rad lat2) * Real.cos (rad (lon2 - lon1)))
    have := Real.abs_cos_le_one (rad (lat1 : ℝ))
    have := one (Real.abs_cos_le_one (rad (lat2 : ℝ))) (Real.abs_cos_le_one (rad (lon2 - lon1 : ℝ)))
    linarith
  obtain ⟨C, hC⟩ : ∃ C, C = Real.cos (rad lat1) + Real.cos (rad lat2) * Real.cos (rad (lon2 - lon1)) := ⟨_, rfl⟩
  obtain ⟨Y, hY⟩ : ∃ Y, Y = Real.cos (rad lat2) * Real.sin (rad (lon2 - lon1)) := ⟨_, rfl⟩
  obtain ⟨Z, hZ⟩ : ∃ Z, Z = Real.sin (rad lat1) + Real.sin (rad lat2) := ⟨_, rfl⟩
  have exact : Sph.midpoint lon1 lat1 lon2 lat2 = (deg (rad lon1 + Coral.atan2 Y C), deg (Coral.atan2 Z (√(C * C + Y * Y)))) := by
    rw [hC, hY, hZ]
    rfl
  rw [exact]
  rw [← hC] at c CB h4
  rw [← hY] at by1 YB h4
  rw [← hZ] at z
  obtain ⟨fc, hfc⟩ : ∃ q, q = fl (m.cos (radians lat1) + fl (m.cos (radians lat2) * m.cos (radians (fl (lon2 - lon1))))) := ⟨_, rfl⟩
  obtain ⟨fy, hfy⟩ : ∃ q, q = fl (m.cos (radians lat2) * m.sin (radians (fl (lon2 - lon1)))) := ⟨_, rfl⟩
  obtain ⟨fz, hfz⟩ : ∃ q, q = fl (m.sin (radians lat1) + m.sin (radians lat2)) := ⟨_, rfl⟩
  obtain ⟨fq, hfq⟩ : ∃ q, q = fl (fl (fc * fc) + fl (fy * fy)) := ⟨_, rfl⟩
  have fq0 : 0 ≤ fq := by
    rw [hfq]
    exact fl_nonneg (add_nonneg (fl_nonneg (mul_self_nonneg _)) (fl_nonneg (mul_self_nonneg _)))
  have model : midpoint m lon1 lat1 lon2 lat2 = .ok (degrees (fl (radians lon1 + m.atan2 fy fc)), degrees (m.atan2 fz (m.sqrt fq))) := by
    rw [midpoint]
    simp only
    rw [← hfy, ← hfc, ← hfz, ← hfq, sqrt_ok fq0]
    rfl
  rw [← hfc] at c
  rw [← hfy] at by1 by1'
  rw [← hfz] at z
  exact ⟨_, _, model, midpoint_lat hm h0 h3 c by1 by1' z CB YB h4 fq0 hfq, midpoint_lon hm h0 h3 c by1 h4 l1'⟩

/-! ### Cases -/

/-- There is a correctly rounded arcsine. -/
theorem exists_asin : ∃ asin, RoundsAsin asin :=
  ⟨fun x => (exists_near (Real.arcsin x)).choose, fun x _ _ => (exists_near (Real.arcsin x)).choose_spec⟩

theorem rad_ninety : rad 90 = Real.pi / 2 := by rw [rad]; ring

theorem rad_nought : rad 0 = 0 := by rw [rad]; ring

/-- From the equator to the west, a radian of a globe of radius 6367000. -/
example (m : Libm) (hm : m.Rounds) (asin : ℚ → ℚ) (ha : RoundsAsin asin) :
    ∃ lon lat, Destination m asin (-150) 0 90 6367000 (some 6367000) (.ok (lon, lat)) ∧ |(lat : ℝ)| ≤ 2 ^ (-33 : ℤ) ∧ |lon| ≤ 180 := by
  obtain ⟨L, hL⟩ : ∃ L, Sph.destination ((-150 : ℚ) : ℝ) ((0 : ℚ) : ℝ) ((90 : ℚ) : ℝ) ((6367000 : ℚ) : ℝ) (some ((6367000 : ℚ) : ℝ)) = .ok (L, 0) := by
    have q : rdiv (6367000 : ℝ) 6367000 = .ok 1 := by rw [rdiv, if_neg (by norm_num), div_self (by norm_num)]
    have s : rasin (Real.sin (rad 0) * Real.cos 1 + Real.cos (rad 0) * Real.sin 1 * Real.cos (rad 90)) = .ok 0 := by
      rw [rad_ninety, rad_nought, Real.cos_pi_div_two, Real.sin_zero, zero_mul, mul_zero, add_zero, rasin, if_neg (by norm_num), Real.arcsin_zero]
    push_cast
    rw [Sph.destination, Sph.radius]
    change ∃ L, (do
        let d ← rdiv (6367000 : ℝ) 6367000
        let l ← rasin (Real.sin (rad 0) * Real.cos d + Real.cos (rad 0) * Real.sin d * Real.cos (rad 90))
        return (deg (Proj.corangle (rad (-150) - Coral.atan2 (Real.sin (rad 90) * Real.sin d * Real.cos (rad 0)) (Real.cos d - Real.sin (rad 0) * Real.sin l))), deg l) :
          Py (ℝ × ℝ)) = .ok (L, 0)
    rw [q]
    change ∃ L, (do
        let l ← rasin (Real.sin (rad 0) * Real.cos 1 + Real.cos (rad 0) * Real.sin 1 * Real.cos (rad 90))
        return (deg (Proj.corangle (rad (-150) - Coral.atan2 (Real.sin (rad 90) * Real.sin 1 * Real.cos (rad 0)) (Real.cos 1 - Real.sin (rad 0) * Real.sin l))), deg l) :
          Py (ℝ × ℝ)) = .ok (L, 0)
    rw [s]
    change ∃ L, Except.ok (_, deg 0) = Except.ok (L, (0 : ℝ))
    rw [show deg 0 = 0 by rw [deg]; ring]
    exact ⟨_, rfl⟩
  obtain ⟨lon, lat, h1, h2, h3, -⟩ := C179_close_partial m hm asin ha (-150) 0 90 6367000 6367000 L 0 (by norm_num) (by norm_num) (by norm_num) (by norm_num) (by norm_num) hL
    (by norm_num)
  exact ⟨lon, lat, (h1 _).mpr rfl, by rwa [sub_zero] at h2, h3⟩

/-- A quarter of the equator. -/
example (m : Libm) (hm : m.Rounds) : ∃ k : ℤ, |(bearing m 0 0 90 0 : ℝ) - (Sph.bearing 0 0 90 0 + 360 * k)| ≤ 2 ^ (-38 : ℤ) := by
  have e : Real.sin (arc ((0 : ℚ) : ℝ) ((0 : ℚ) : ℝ) ((90 : ℚ) : ℝ) ((0 : ℚ) : ℝ)) = 1 := by
    have h := Sph.sin_arc_sq 0 0 90 0
    rw [rad_nought, show rad (0 - 90) = -(Real.pi / 2) by rw [rad]; ring, Real.sin_neg, Real.sin_pi_div_two, Real.cos_zero, Real.sin_zero] at h
    have h0 : 0 ≤ Real.sin (arc 0 0 90 0) := Real.sin_nonneg_of_nonneg_of_le_pi (arc_nonneg _ _ _ _) (arc_le_pi _ _ _ _)
    push_cast
    nlinarith
  obtain ⟨-, k, hk⟩ := C180_bearing m hm 0 0 90 0 (by norm_num) (by norm_num) (by norm_num) (by rw [e]; norm_num)
  rw [e, div_one] at hk
  push_cast at hk
  exact ⟨k, hk⟩

/-- The middle of a quarter of the equator. -/
example (m : Libm) (hm : m.Rounds) : ∃ lon lat, midpoint m 0 0 90 0 = .ok (lon, lat) ∧ |(lat : ℝ) - (Sph.midpoint 0 0 90 0).2| ≤ 2 ^ (-37 : ℤ) := by
  have e : fromAxis ((0 : ℚ) : ℝ) ((0 : ℚ) : ℝ) ((90 : ℚ) : ℝ) ((0 : ℚ) : ℝ) = 2 := by
    push_cast
    rw [fromAxis, rad_nought, rad_ninety, Real.cos_zero, Real.sin_zero, Real.cos_pi_div_two, Real.sin_pi_div_two]
    norm_num
  obtain ⟨lon, lat, h1, h2, -⟩ := C181_close m hm 0 0 90 0 1 (by norm_num) (by norm_num) (by norm_num) (by norm_num) (by norm_num) le_rfl (by rw [e]; norm_num)
  push_cast at h2
  rw [one_pow, div_one] at h2
  exact ⟨lon, lat, h1, h2⟩

end Flt
end Coral
