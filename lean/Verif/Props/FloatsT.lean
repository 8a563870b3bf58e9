import Verif.Proofs.FloatsT
import Verif.Proofs.Sphere

/-!
# Distances on floats (C172)
-/
namespace Coral
namespace Flt

open Spec (arc)
open Sph (arc_nonneg arc_le_pi sin_half_arc)

/-! ### Errors -/

theorem abs_real {x y : ℚ} (h : |x| ≤ y) : |(x : ℝ)| ≤ y := by exact_mod_cast h

/-- The number `a` of `haversine` is off by less than 74 units. -/
theorem hav_err {m : Libm} (hm : m.Rounds) {lon1 lat1 lon2 lat2 : ℚ} (h1 : |lat1| ≤ 90) (h2 : |lat2| ≤ 90) (hl : |lon2 - lon1| ≤ 360) :
    |(hav m lon1 lat1 lon2 lat2 : ℝ) - Sph.hav lon1 lat1 lon2 lat2| ≤ 74 * w := by
  have hw := w_pos
  have h1' := abs_real h1
  have h2' := abs_real h2
  have hl' := abs_real hl
  push_cast at h1' h2' hl'
  have hd : |(lat2 : ℝ) - lat1| ≤ 360 := by
    have := abs_sub (lat2 : ℝ) lat1
    linarith
  obtain ⟨s1, s1'⟩ := sin_err hm (half_err hd)
  obtain ⟨t1, t1'⟩ := sin_err hm (half_err hl')
  obtain ⟨c1, c1'⟩ := cos_err hm (radians_err (x := lat1) (by linarith))
  obtain ⟨c2, c2'⟩ := cos_err hm (radians_err (x := lat2) (by linarith))
  obtain ⟨a1, a1'⟩ := mul_err s1' s1' (Real.abs_sin_le_one _) s1 s1
  obtain ⟨b1, b1'⟩ := mul_err t1' t1' (Real.abs_sin_le_one _) t1 t1
  have hA : |Real.sin (rad ((lon2 : ℝ) - lon1) / 2) * Real.sin (rad ((lon2 : ℝ) - lon1) / 2)| ≤ 1 := by
    rw [abs_mul]
    exact mul_le_one₀ (Real.abs_sin_le_one _) (abs_nonneg _) (Real.abs_sin_le_one _)
  obtain ⟨b2, b2'⟩ := mul_err b1' c1' hA b1 c1
  have hB : |Real.sin (rad ((lon2 : ℝ) - lon1) / 2) * Real.sin (rad ((lon2 : ℝ) - lon1) / 2) * Real.cos (rad lat1)| ≤ 1 := by
    rw [abs_mul]
    exact mul_le_one₀ hA (abs_nonneg _) (Real.abs_cos_le_one _)
  obtain ⟨b3, b3'⟩ := mul_err b2' c2' hB b2 c2
  rw [hav, Sph.hav]
  generalize fl (m.sin (fl (radians (fl (lat2 - lat1)) / 2)) * m.sin (fl (radians (fl (lat2 - lat1)) / 2))) = x at *
  generalize fl (fl (fl (m.sin (fl (radians (fl (lon2 - lon1)) / 2)) * m.sin (fl (radians (fl (lon2 - lon1)) / 2))) * m.cos (radians lat1)) *
    m.cos (radians lat2)) = y at *
  generalize Real.sin (rad ((lat2 : ℝ) - lat1) / 2) * Real.sin (rad ((lat2 : ℝ) - lat1) / 2) = X at *
  generalize Real.sin (rad ((lon2 : ℝ) - lon1) / 2) * Real.sin (rad ((lon2 : ℝ) - lon1) / 2) * Real.cos (rad lat1) * Real.cos (rad lat2) = Y at *
  have e := fl_err_real (x + y)
  push_cast at e
  have f : |(x : ℝ) + y| ≤ 2 := (abs_add_le _ _).trans (by linarith)
  have f' := mul_le_mul_of_nonneg_right f (by linarith : (0 : ℝ) ≤ w / 2)
  have g1 := abs_sub_le (fl (x + y) : ℝ) ((x : ℝ) + y) (X + Y)
  have g2 : |(x : ℝ) + y - (X + Y)| ≤ |(x : ℝ) - X| + |(y : ℝ) - Y| := by
    rw [show (x : ℝ) + y - (X + Y) = (x - X) + (y - Y) by ring]
    exact abs_add_le _ _
  linarith

theorem right_angle : fl (90 * degree) = piD / 2 := by decide +kernel

theorem piD_lt : (piD : ℝ) < Real.pi := by
  have := Real.pi_gt_d20
  rw [piD]
  push_cast
  refine lt_of_le_of_lt ?_ this
  norm_num

theorem degree_pos : 0 < degree := by rw [degree_eq]; norm_num

theorem radians_quarter {lat : ℚ} (h : |lat| ≤ 90) : |radians lat| ≤ piD / 2 := by
  obtain ⟨h1, h2⟩ := abs_le.mp h
  have a := fl_mono (mul_le_mul_of_nonneg_right h2 degree_pos.le)
  have b := fl_mono (mul_le_mul_of_nonneg_right h1 degree_pos.le)
  rw [neg_mul, fl_neg, right_angle] at b
  rw [right_angle] at a
  exact abs_le.mpr ⟨b, a⟩

/-- The cosine of a latitude is not negative. -/
theorem cos_lat_nonneg {m : Libm} (hm : m.Rounds) {lat : ℚ} (h : |lat| ≤ 90) : 0 ≤ m.cos (radians lat) := by
  have a := abs_real (radians_quarter h)
  push_cast at a
  have := piD_lt
  obtain ⟨a1, a2⟩ := abs_le.mp a
  exact le_near (hm.cos _) double_zero (by push_cast; exact Real.cos_nonneg_of_neg_pi_div_two_le_of_le (by linarith) (by linarith))

theorem fl_nonneg {x : ℚ} (h : 0 ≤ x) : 0 ≤ fl x := le_fl double_zero h

theorem hav_nonneg {m : Libm} (hm : m.Rounds) {lon1 lat1 lon2 lat2 : ℚ} (h1 : |lat1| ≤ 90) (h2 : |lat2| ≤ 90) : 0 ≤ hav m lon1 lat1 lon2 lat2 := by
  rw [hav]
  have c1 := cos_lat_nonneg hm h1
  have c2 := cos_lat_nonneg hm h2
  exact fl_nonneg (add_nonneg (fl_nonneg (mul_self_nonneg _))
    (fl_nonneg (mul_nonneg (fl_nonneg (mul_nonneg (fl_nonneg (mul_self_nonneg _)) c1)) c2)))

/-! ### Roots and angles -/

/-- The square of a rounded root of a number of at most 1. -/
theorem root_sq_err {sqrt : ℚ → ℚ} (hr : RoundsRoots sqrt) {x : ℚ} (h0 : 0 ≤ x) (h1 : x ≤ 1) : |(sqrt x : ℝ) ^ 2 - x| ≤ 2 * w ∧ 0 ≤ sqrt x := by
  obtain ⟨hd, hp, hn⟩ := hr x h0
  have h0' : (0 : ℝ) ≤ x := by exact_mod_cast h0
  have h1' : (x : ℝ) ≤ 1 := by exact_mod_cast h1
  have y0 := Real.sqrt_nonneg (x : ℝ)
  have y1 : √(x : ℝ) ≤ 1 := Real.sqrt_le_one.mpr h1'
  have ys := Real.sq_sqrt h0'
  have hN : Nearest (√(x : ℝ)) (sqrt x) := ⟨hd, hn⟩
  have e := near_err_one hN (by rw [abs_of_nonneg y0]; exact y1)
  have b := near_abs_one hN (by rw [abs_of_nonneg y0]; exact y1)
  refine ⟨?_, hp⟩
  rw [← ys, show (sqrt x : ℝ) ^ 2 - √(x : ℝ) ^ 2 = (sqrt x - √(x : ℝ)) * (sqrt x + √(x : ℝ)) by ring, abs_mul]
  have : |(sqrt x : ℝ) + √(x : ℝ)| ≤ 2 := (abs_add_le _ _).trans (by rw [abs_of_nonneg y0]; linarith)
  have := mul_le_mul e this (abs_nonneg _) w_pos.le
  linarith

/-- Angles of at most a right angle are close when the squares of their sines are. -/
theorem angle_close {α β : ℝ} (a0 : 0 ≤ α) (a1 : α ≤ Real.pi / 2) (b0 : 0 ≤ β) (b1 : β ≤ Real.pi / 2) :
    (2 / Real.pi * |α - β|) ^ 2 ≤ |Real.sin α ^ 2 - Real.sin β ^ 2| := by
  wlog h : β ≤ α generalizing α β
  · have := this b0 b1 a0 a1 (by linarith)
    rwa [abs_sub_comm β α, abs_sub_comm (Real.sin β ^ 2)] at this
  have e : Real.sin α ^ 2 - Real.sin β ^ 2 = Real.sin (α + β) * Real.sin (α - β) := by
    rw [Real.sin_add, Real.sin_sub]
    have h1 := Real.sin_sq_add_cos_sq α
    have h2 := Real.sin_sq_add_cos_sq β
    linear_combination (Real.sin β ^ 2) * h1 - (Real.sin α ^ 2) * h2
  have hs : 2 / Real.pi * (α - β) ≤ Real.sin (α - β) := Real.mul_le_sin (by linarith) (by linarith)
  have hp : 0 ≤ 2 / Real.pi * (α - β) := mul_nonneg (by positivity) (by linarith)
  have ht : Real.sin (α - β) ≤ Real.sin (α + β) := by
    rcases le_total (α + β) (Real.pi / 2) with c | c
    · exact Real.sin_le_sin_of_le_of_le_pi_div_two (by linarith) c (by linarith)
    · rw [← Real.sin_pi_sub (α + β)]
      exact Real.sin_le_sin_of_le_of_le_pi_div_two (by linarith) (by linarith) (by linarith)
  have hs0 := hp.trans hs
  rw [e, abs_of_nonneg (mul_nonneg (hs0.trans ht) hs0), abs_of_nonneg (by linarith : 0 ≤ α - β), sq]
  exact mul_le_mul (hs.trans ht) hs hp (hs0.trans ht)

/-- The angle whose tangent is the quotient of the two roots. -/
theorem roots_angle {m : Libm} (hm : m.Rounds) {a : ℚ} (h0 : 0 ≤ a) (h1 : a ≤ 1) :
    0 ≤ Coral.atan2 (m.sqrt a) (m.sqrt (fl (1 - a))) ∧ Coral.atan2 (m.sqrt a) (m.sqrt (fl (1 - a))) ≤ Real.pi / 2 ∧
      |Real.sin (Coral.atan2 (m.sqrt a) (m.sqrt (fl (1 - a)))) ^ 2 - a| ≤ 5 * w := by
  have hw := w_pos
  have hle := w_le
  have b0 : 0 ≤ fl (1 - a) := fl_nonneg (by linarith)
  have b1 : fl (1 - a) ≤ 1 := fl_le double_one (by linarith)
  obtain ⟨s, s0⟩ := root_sq_err hm.sqrt h0 h1
  obtain ⟨t, t0⟩ := root_sq_err hm.sqrt b0 b1
  have e := fl_err_real (1 - a)
  push_cast at e
  have h0' : (0 : ℝ) ≤ a := by exact_mod_cast h0
  have h1' : (a : ℝ) ≤ 1 := by exact_mod_cast h1
  rw [abs_of_nonneg (by linarith : (0 : ℝ) ≤ 1 - a)] at e
  have e' : |(fl (1 - a) : ℝ) - (1 - a)| ≤ w := by nlinarith
  have s0' : (0 : ℝ) ≤ m.sqrt a := by exact_mod_cast s0
  have t0' : (0 : ℝ) ≤ m.sqrt (fl (1 - a)) := by exact_mod_cast t0
  generalize (m.sqrt a : ℝ) = p at *
  generalize (m.sqrt (fl (1 - a)) : ℝ) = q at *
  generalize (fl (1 - a) : ℝ) = b at *
  have t' : |q ^ 2 - (1 - a)| ≤ 3 * w := by
    have := abs_sub_le (q ^ 2) b (1 - (a : ℝ))
    linarith
  obtain ⟨s1, s2⟩ := abs_le.mp s
  obtain ⟨t1, t2⟩ := abs_le.mp t'
  rw [Coral.atan2]
  refine ⟨Complex.arg_nonneg_iff.mpr s0', ?_, ?_⟩
  · exact (abs_le.mp ((Complex.abs_arg_le_pi_div_two_iff (z := ⟨q, p⟩)).mpr t0')).2
  · rw [Complex.sin_arg, div_pow]
    have hn : ‖(⟨q, p⟩ : ℂ)‖ ^ 2 = q ^ 2 + p ^ 2 := by
      rw [← Complex.normSq_eq_norm_sq, Complex.normSq_mk]
      ring
    rw [hn]
    change |p ^ 2 / (q ^ 2 + p ^ 2) - a| ≤ 5 * w
    have hpos : 0 < q ^ 2 + p ^ 2 := by nlinarith
    rw [show p ^ 2 / (q ^ 2 + p ^ 2) - (a : ℝ) = (p ^ 2 * (1 - a) - a * q ^ 2) / (q ^ 2 + p ^ 2) by field_simp; ring, abs_div,
      abs_of_pos hpos, div_le_iff₀ hpos, abs_le]
    constructor <;> nlinarith

theorem sqrt_ok {m : Libm} {x : ℚ} (h : 0 ≤ x) : m.pySqrt x = .ok (m.sqrt x) := by
  rw [Libm.pySqrt, if_neg (not_lt.mpr h)]

theorem far_from_antipode {lon1 lat1 lon2 lat2 : ℝ} (h : arc lon1 lat1 lon2 lat2 ≤ Real.pi - 2 ^ (-20 : ℤ)) :
    Sph.hav lon1 lat1 lon2 lat2 ≤ 1 - 74 * w := by
  have h0 := arc_nonneg lon1 lat1 lon2 lat2
  rw [sin_half_arc, Real.sin_sq]
  have hpi := Real.pi_lt_d2
  have hp := Real.pi_pos
  have k : 2 / Real.pi * ((Real.pi - arc lon1 lat1 lon2 lat2) / 2) ≤ Real.cos (arc lon1 lat1 lon2 lat2 / 2) := by
    have := Real.mul_le_sin (x := (Real.pi - arc lon1 lat1 lon2 lat2) / 2) (by have := arc_le_pi lon1 lat1 lon2 lat2; linarith) (by linarith)
    refine this.trans (le_of_eq ?_)
    rw [← Real.sin_pi_div_two_sub]
    congr 1
    ring
  have k2 : (2 : ℝ) ^ (-22 : ℤ) ≤ 2 / Real.pi * ((Real.pi - arc lon1 lat1 lon2 lat2) / 2) := by
    rw [show 2 / Real.pi * ((Real.pi - arc lon1 lat1 lon2 lat2) / 2) = (Real.pi - arc lon1 lat1 lon2 lat2) / Real.pi by ring, le_div_iff₀ hp]
    have e : (2 : ℝ) ^ (-20 : ℤ) = 4 * 2 ^ (-22 : ℤ) := by norm_num
    have e2 : (0 : ℝ) < 2 ^ (-22 : ℤ) := by positivity
    rw [e] at h
    generalize (2 : ℝ) ^ (-22 : ℤ) = z at *
    nlinarith
  have k3 := k2.trans k
  have k4 : ((2 : ℝ) ^ (-22 : ℤ)) ^ 2 ≤ Real.cos (arc lon1 lat1 lon2 lat2 / 2) ^ 2 := by gcongr
  have k5 : ((2 : ℝ) ^ (-22 : ℤ)) ^ 2 = 256 * w := by unfold w; norm_num
  rw [k5] at k4
  have := w_pos
  linarith

/-- The radius that `haversine` uses. -/
def radiusOf (m : Libm) (lat1 lat2 : ℚ) : Option ℚ → Py ℚ
  | some r => .ok r
  | none => radiusat m (fl (fl (lat1 + lat2) / 2))

theorem haversine_ok {m : Libm} {lon1 lat1 lon2 lat2 r : ℚ} {R : Option ℚ} (hr : radiusOf m lat1 lat2 R = .ok r)
    (h0 : 0 ≤ hav m lon1 lat1 lon2 lat2) (h1 : hav m lon1 lat1 lon2 lat2 ≤ 1) : haversine m lon1 lat1 lon2 lat2 R =
      .ok (fl (r * fl (2 * m.atan2 (m.sqrt (hav m lon1 lat1 lon2 lat2)) (m.sqrt (fl (1 - hav m lon1 lat1 lon2 lat2)))))) := by
  cases R with
  | some r' =>
    obtain rfl : r' = r := by simpa [radiusOf] using hr
    simp only [haversine, sqrt_ok h0, sqrt_ok (fl_nonneg (sub_nonneg.mpr h1))]
    rfl
  | none =>
    rw [radiusOf] at hr
    simp only [haversine, sqrt_ok h0, sqrt_ok (fl_nonneg (sub_nonneg.mpr h1)), hr]
    rfl

/-- C172: `haversine` of points on floats that are not antipodes up to some metres on Earth is off by at most some metres. Missing: the points
near each other's antipodes, see `C172_antipodes_violated`. -/
theorem C172_close_partial (m : Libm) (hm : m.Rounds) (lon1 lat1 lon2 lat2 R : ℚ) (h1 : |lat1| ≤ 90) (h2 : |lat2| ≤ 90) (hl : |lon2 - lon1| ≤ 360)
    (hR : 1 ≤ R) (ha : arc lon1 lat1 lon2 lat2 ≤ Real.pi - 2 ^ (-20 : ℤ)) :
    ∃ d, haversine m lon1 lat1 lon2 lat2 (some R) = .ok d ∧ 0 ≤ d ∧ |(d : ℝ) - R * arc lon1 lat1 lon2 lat2| ≤ R * 2 ^ (-20 : ℤ) := by
  have hw := w_pos
  have hle := w_le
  have e := hav_err hm h1 h2 hl
  have n0 := hav_nonneg hm (lon1 := lon1) (lon2 := lon2) h1 h2
  have f := far_from_antipode ha
  have n1 : hav m lon1 lat1 lon2 lat2 ≤ 1 := by
    have := (abs_le.mp e).2
    have : (hav m lon1 lat1 lon2 lat2 : ℝ) ≤ 1 := by linarith
    exact_mod_cast this
  refine ⟨_, haversine_ok (R := some R) rfl n0 n1, ?_, ?_⟩
  all_goals obtain ⟨r0, r1, r2⟩ := roots_angle hm n0 n1
  all_goals have rn := hm.atan2 (m.sqrt (hav m lon1 lat1 lon2 lat2)) (m.sqrt (fl (1 - hav m lon1 lat1 lon2 lat2)))
  all_goals have c0 : 0 ≤ m.atan2 (m.sqrt (hav m lon1 lat1 lon2 lat2)) (m.sqrt (fl (1 - hav m lon1 lat1 lon2 lat2))) := le_near rn double_zero (by simpa using r0)
  · exact fl_nonneg (mul_nonneg (by linarith) (fl_nonneg (by linarith)))
  · have rb := near_err rn
    rw [abs_of_nonneg r0] at rb
    generalize Coral.atan2 (m.sqrt (hav m lon1 lat1 lon2 lat2)) (m.sqrt (fl (1 - hav m lon1 lat1 lon2 lat2))) = α at *
    generalize m.atan2 (m.sqrt (hav m lon1 lat1 lon2 lat2)) (m.sqrt (fl (1 - hav m lon1 lat1 lon2 lat2))) = c at *
    have g0 := arc_nonneg lon1 lat1 lon2 lat2
    have g1 := arc_le_pi lon1 lat1 lon2 lat2
    have hp := Real.pi_pos
    have hpi := Real.pi_lt_d2
    have k := angle_close r0 r1 (by linarith : 0 ≤ arc lon1 lat1 lon2 lat2 / 2) (by linarith)
    rw [← sin_half_arc] at k
    have k1 := abs_sub_le (Real.sin α ^ 2) (hav m lon1 lat1 lon2 lat2 : ℝ) (Sph.hav lon1 lat1 lon2 lat2)
    generalize arc (lon1 : ℝ) lat1 lon2 lat2 = θ at *
    have k2 : (2 / Real.pi * |α - θ / 2|) ^ 2 ≤ (9 * 2 ^ (-26 : ℤ)) ^ 2 := by
      have : ((9 : ℝ) * 2 ^ (-26 : ℤ)) ^ 2 = 81 * w := by unfold w; norm_num
      rw [this]
      linarith
    have k3 : 2 / Real.pi * |α - θ / 2| ≤ 9 * 2 ^ (-26 : ℤ) := abs_le_of_sq_le_sq' k2 (by positivity) |>.2
    have k4 : |α - θ / 2| ≤ 15 * 2 ^ (-26 : ℤ) := by
      have : |α - θ / 2| = Real.pi / 2 * (2 / Real.pi * |α - θ / 2|) := by field_simp
      rw [this]
      have := mul_le_mul_of_nonneg_left k3 (by positivity : 0 ≤ Real.pi / 2)
      refine this.trans ?_
      have e2 : (0 : ℝ) < 2 ^ (-26 : ℤ) := by positivity
      generalize (2 : ℝ) ^ (-26 : ℤ) = z at *
      nlinarith
    have ez : (2 : ℝ) ^ (-20 : ℤ) = 64 * 2 ^ (-26 : ℤ) := by norm_num
    have ew : w ≤ 2 ^ (-26 : ℤ) / 1000 := by unfold w; norm_num
    rw [ez]
    have hz : (0 : ℝ) < 2 ^ (-26 : ℤ) := by positivity
    have hz1 : (2 : ℝ) ^ (-26 : ℤ) ≤ 1 / 1000 := by norm_num
    generalize (2 : ℝ) ^ (-26 : ℤ) = z at *
    have c1 : |(c : ℝ) - α| ≤ w := by nlinarith
    have c2 : |(c : ℝ) - θ / 2| ≤ 16 * z := by
      have := abs_sub_le (c : ℝ) α (θ / 2)
      linarith
    have c0' : (0 : ℝ) ≤ c := by exact_mod_cast c0
    have c3 : (c : ℝ) ≤ 2 := by
      have := (abs_le.mp c2).2
      linarith
    have d1 := fl_err_real (2 * c)
    push_cast at d1
    rw [abs_of_nonneg (by linarith : (0 : ℝ) ≤ 2 * c)] at d1
    have d2 : |(fl (2 * c) : ℝ) - θ| ≤ 33 * z := by
      have a1 := abs_sub_le (fl (2 * c) : ℝ) (2 * c) θ
      have a2 : |2 * (c : ℝ) - θ| = 2 * |(c : ℝ) - θ / 2| := by
        rw [← abs_two (α := ℝ), ← abs_mul, abs_two]
        congr 1
        ring
      nlinarith
    have x0 : (0 : ℝ) ≤ fl (2 * c) := by exact_mod_cast fl_nonneg (by linarith)
    generalize fl (2 * c) = x at *
    have x1 : (x : ℝ) ≤ 4 := by
      have := (abs_le.mp d2).2
      linarith
    have hR' : (1 : ℝ) ≤ R := by exact_mod_cast hR
    have y1 := fl_err_real (R * x)
    push_cast at y1
    rw [abs_of_nonneg (mul_nonneg (by linarith) x0)] at y1
    have y2 := abs_sub_le (fl (R * x) : ℝ) (R * x) (R * θ)
    have y3 : |(R : ℝ) * x - R * θ| = R * |(x : ℝ) - θ| := by rw [← mul_sub, abs_mul, abs_of_nonneg (by linarith : (0 : ℝ) ≤ R)]
    have y4 := mul_le_mul_of_nonneg_left d2 (by linarith : (0 : ℝ) ≤ R)
    have y5 : (R : ℝ) * x * (w / 2) ≤ R * z := by
      rw [mul_assoc]
      refine mul_le_mul_of_nonneg_left ?_ (by linarith)
      nlinarith
    have y7 : z ≤ (R : ℝ) * z := le_mul_of_one_le_left hz.le hR'
    have y6 : w / 1024 ≤ R * z := by linarith
    clear k1 k2 k3 k4 k e f r2 rb ha
    rw [y3] at y2
    rw [show (R : ℝ) * (64 * z) = 64 * (R * z) by ring]
    rw [show (R : ℝ) * (33 * z) = 33 * (R * z) by ring] at y4
    linarith

/-! ### The radius -/

theorem wgs_a2 : fl (wgsA * wgsA) = 40680631590769 := by decide +kernel

theorem wgs_b2 : 40408299984000 ≤ fl (wgsB * wgsB) ∧ fl (wgsB * wgsB) ≤ 40408299985000 := by decide +kernel

/-- Relative errors of numbers of at least 1. -/
theorem rel_one {z : ℚ} (h : (1 : ℝ) ≤ z) : (fl z : ℝ) ≤ z * (1 + w) ∧ (z : ℝ) * (1 - w) ≤ fl z := by
  have e := fl_err_real z
  rw [abs_of_nonneg (by linarith : (0 : ℝ) ≤ z)] at e
  obtain ⟨e1, e2⟩ := abs_le.mp e
  have := w_pos
  constructor <;> nlinarith

/-- A positive number times the square of a number of at most 1, as the code computes it. -/
theorem weighted {K c : ℚ} (hK : (1 : ℝ) ≤ K) (hc : |(c : ℝ)| ≤ 1) : 0 ≤ fl (fl (K * c) * c) ∧ (K : ℝ) * c ^ 2 - 3 * (K * w) ≤ fl (fl (K * c) * c) := by
  have hw := w_pos
  have hle := w_le
  have hK' : 1 ≤ K := by exact_mod_cast hK
  have hKw : w ≤ K * w := le_mul_of_one_le_left hw.le hK
  constructor
  · refine fl_nonneg ?_
    rcases le_total 0 c with h | h
    · exact mul_nonneg (fl_nonneg (mul_nonneg (by linarith) h)) h
    · exact mul_nonneg_of_nonpos_of_nonpos (fl_le double_zero (mul_nonpos_of_nonneg_of_nonpos (by linarith) h)) h
  · have e := fl_err_real (K * c)
    push_cast at e
    have b : |(K : ℝ) * c| ≤ K := by
      rw [abs_mul, abs_of_nonneg (by linarith : (0 : ℝ) ≤ K)]
      nlinarith
    have e1 : |(fl (K * c) : ℝ) - K * c| ≤ K * w := by nlinarith
    have b1 : |(fl (K * c) : ℝ)| ≤ 2 * K := by
      have := abs_sub_abs_le_abs_sub (fl (K * c) : ℝ) (K * c)
      nlinarith
    generalize fl (K * c) = p at *
    have e2 := fl_err_real (p * c)
    push_cast at e2
    have b2 : |(p : ℝ) * c| ≤ 2 * K := by
      rw [abs_mul]
      have := mul_le_mul b1 hc (abs_nonneg _) (by linarith)
      linarith
    have e3 : |(fl (p * c) : ℝ) - p * c| ≤ 2 * (K * w) := by nlinarith
    have e4 : |(p : ℝ) * c - K * c * c| ≤ K * w := by
      rw [← sub_mul, abs_mul]
      have := mul_le_mul e1 hc (abs_nonneg _) (by nlinarith)
      linarith
    have e5 := (abs_le.mp e3).1
    have e6 := (abs_le.mp e4).1
    nlinarith

theorem quot {A B S T N D : ℝ} (hB : 1 ≤ B) (hAB : B ≤ A) (hS : 1 ≤ S) (lo : B * S ≤ T) (up : T ≤ A * S) (N1 : N ≤ T * (1 + 2 * w))
    (N2 : T * (1 - 2 * w) ≤ N) (d1 : D ≤ S * (1 + w)) (d2 : S * (1 - w) ≤ D) : 0 < D ∧ N / D ≤ A * (1 + 4 * w) ∧ B * (1 - 4 * w) ≤ N / D := by
  have hw := w_pos
  have hle := w_le
  have D0 : 0 < D := lt_of_lt_of_le (mul_pos (by linarith) (by linarith)) d2
  have AS : 0 ≤ A * S := mul_nonneg (by linarith) (by linarith)
  have BS : 0 ≤ B * S := mul_nonneg (by linarith) (by linarith)
  refine ⟨D0, ?_, ?_⟩
  · rw [div_le_iff₀ D0]
    have h1 : T * (1 + 2 * w) ≤ A * S * (1 + 2 * w) := mul_le_mul_of_nonneg_right up (by linarith)
    have h2 : A * (1 + 4 * w) * (S * (1 - w)) ≤ A * (1 + 4 * w) * D := mul_le_mul_of_nonneg_left d2 (mul_nonneg (by linarith) (by linarith))
    have h3 : A * S * (1 + 2 * w) ≤ A * S * ((1 + 4 * w) * (1 - w)) := mul_le_mul_of_nonneg_left (by nlinarith) AS
    linarith
  · rw [le_div_iff₀ D0]
    have h1 : B * S * (1 - 2 * w) ≤ T * (1 - 2 * w) := mul_le_mul_of_nonneg_right lo (by linarith)
    have h2 : B * (1 - 4 * w) * D ≤ B * (1 - 4 * w) * (S * (1 + w)) := mul_le_mul_of_nonneg_left d1 (mul_nonneg (by linarith) (by linarith))
    have h3 : B * S * ((1 - 4 * w) * (1 + w)) ≤ B * S * (1 - 2 * w) := mul_le_mul_of_nonneg_left (by nlinarith) BS
    linarith

/-- The weighted mean of two numbers, as the code computes it. -/
theorem mean_rel {A B X Y : ℚ} (hB : (1 : ℝ) ≤ B) (hAB : (B : ℝ) ≤ A) (hX : 0 ≤ X) (hY : 0 ≤ Y) (hs : (1 : ℝ) ≤ X + Y) :
    ∃ q, div (fl (fl (A * X) + fl (B * Y))) (fl (X + Y)) = .ok q ∧ (q : ℝ) ≤ A * (1 + 6 * w) ∧ (B : ℝ) * (1 - 6 * w) ≤ q := by
  have hw := w_pos
  have hle := w_le
  have hX' : (0 : ℝ) ≤ X := by exact_mod_cast hX
  have hY' : (0 : ℝ) ≤ Y := by exact_mod_cast hY
  have e1 := fl_err_real (A * X)
  have e2 := fl_err_real (B * Y)
  push_cast at e1 e2
  have aX : 0 ≤ (A : ℝ) * X := mul_nonneg (by linarith) hX'
  have bY : 0 ≤ (B : ℝ) * Y := mul_nonneg (by linarith) hY'
  rw [abs_of_nonneg aX] at e1
  rw [abs_of_nonneg bY] at e2
  have up : (A : ℝ) * X + B * Y ≤ A * (X + Y) := by nlinarith
  have lo : (B : ℝ) * (X + Y) ≤ A * X + B * Y := by nlinarith
  have lo1 : 1 ≤ (B : ℝ) * (X + Y) := by nlinarith
  obtain ⟨d1, d2⟩ := rel_one (z := X + Y) (by push_cast; exact hs)
  push_cast at d1 d2
  obtain ⟨f1, f1'⟩ := abs_le.mp e1
  obtain ⟨f2, f2'⟩ := abs_le.mp e2
  generalize (A : ℝ) * X = a at *
  generalize (B : ℝ) * Y = b at *
  obtain ⟨T, hT⟩ : ∃ T, T = a + b := ⟨_, rfl⟩
  have g1 : (fl (A * X) : ℝ) + fl (B * Y) ≤ T * (1 + w) := by rw [hT]; nlinarith
  have g2 : T * (1 - w) ≤ (fl (A * X) : ℝ) + fl (B * Y) := by rw [hT]; nlinarith
  have T1 : 1 ≤ T := by linarith
  have e3 := fl_err_real (fl (A * X) + fl (B * Y))
  push_cast at e3
  generalize fl (A * X) = x at *
  generalize fl (B * Y) = y at *
  rw [abs_of_nonneg (by nlinarith : (0 : ℝ) ≤ x + y)] at e3
  obtain ⟨n1, n2⟩ := abs_le.mp e3
  have N1 : (fl (x + y) : ℝ) ≤ T * (1 + 2 * w) := by nlinarith
  have N2 : T * (1 - 2 * w) ≤ fl (x + y) := by nlinarith
  obtain ⟨D0, q1, q2⟩ := quot hB hAB hs (by linarith : (B : ℝ) * (X + Y) ≤ T) (by linarith : T ≤ A * (X + Y)) N1 N2 d1 d2
  generalize fl (x + y) = N at *
  generalize fl (X + Y) = D at *
  have D0' : D ≠ 0 := by
    intro h
    rw [h] at D0
    simp at D0
  refine ⟨fl (N / D), by rw [div, if_neg D0'], ?_⟩
  have e4 := fl_err_real (N / D)
  push_cast at e4
  have Q0 : 0 ≤ (N : ℝ) / D := le_trans (mul_nonneg (by linarith) (by linarith)) q2
  rw [abs_of_nonneg Q0] at e4
  obtain ⟨n1, n2⟩ := abs_le.mp e4
  clear e1 e2 e3 e4 f1 f1' f2 f2' N1 N2 g1 g2 lo up lo1 d1 d2 aX bY
  generalize (N : ℝ) / D = Q at *
  have hwA : w ≤ A * w := le_mul_of_one_le_left hw.le (by linarith)
  have hwB : w ≤ B * w := le_mul_of_one_le_left hw.le hB
  have m1 : Q * (w / 2) ≤ A * (1 + 4 * w) * (w / 2) := mul_le_mul_of_nonneg_right q1 (by linarith)
  have m2 : (A : ℝ) * (1 + 4 * w) * (w / 2) ≤ A * w := by nlinarith
  have m3 : (B : ℝ) * (1 - 4 * w) * (1 - w / 2) ≤ Q * (1 - w / 2) := mul_le_mul_of_nonneg_right q2 (by linarith)
  have m4 : (B : ℝ) * (1 - 5 * w) ≤ B * (1 - 4 * w) * (1 - w / 2) := by
    rw [mul_assoc]
    exact mul_le_mul_of_nonneg_left (by nlinarith) (by linarith)
  constructor <;> linarith

/-- C172: `radiusat` returns a number between the polar and the equatorial radius, up to a millimetre. -/
theorem C172_radius (m : Libm) (hm : m.Rounds) (lat : ℚ) (h : |lat| ≤ 90) :
    ∃ r, radiusat m lat = .ok r ∧ wgsB - 1 / 1000 ≤ r ∧ r ≤ wgsA + 1 / 1000 := by
  have hw := w_pos
  have hle := w_le
  have hq := w_eq
  obtain ⟨c1, c1'⟩ := cos_err hm (radians_err (x := lat) (by have := abs_real h; push_cast at this; linarith))
  obtain ⟨s1, s1'⟩ := sin_err hm (radians_err (x := lat) (by have := abs_real h; push_cast at this; linarith))
  have one := Real.sin_sq_add_cos_sq (rad lat)
  obtain ⟨bl, bh⟩ := wgs_b2
  have bl' : (40408299984000 : ℝ) ≤ fl (wgsB * wgsB) := by exact_mod_cast bl
  have bh' : (fl (wgsB * wgsB) : ℝ) ≤ 40408299985000 := by exact_mod_cast bh
  rw [radiusat, wgs_a2]
  have hbb : fl (wgsB * wgsB) = 5172262398036665 / 128 := by decide +kernel
  generalize fl (wgsB * wgsB) = B at *
  obtain ⟨X0, X1⟩ := weighted (K := 40680631590769) (by norm_num) c1'
  obtain ⟨Y0, Y1⟩ := weighted (K := B) (by linarith) s1'
  push_cast at X1
  have sum : (1 : ℝ) ≤ fl (fl (40680631590769 * m.cos (radians lat)) * m.cos (radians lat)) + fl (fl (B * m.sin (radians lat)) * m.sin (radians lat)) := by
    have k1 : Real.cos (rad lat) ^ 2 - 22 * w ≤ (m.cos (radians lat) : ℝ) ^ 2 := by
      have b := Real.abs_cos_le_one (rad lat)
      generalize (m.cos (radians lat) : ℝ) = x at *
      generalize Real.cos (rad lat) = y at *
      have : |y ^ 2 - x ^ 2| ≤ 20 * w := by
        rw [show y ^ 2 - x ^ 2 = (y - x) * (y + x) by ring, abs_mul, abs_sub_comm]
        have := mul_le_mul c1 (abs_add_le y x) (abs_nonneg _) (by linarith)
        nlinarith
      have := (abs_le.mp this).2
      linarith
    have k2 : Real.sin (rad lat) ^ 2 - 22 * w ≤ (m.sin (radians lat) : ℝ) ^ 2 := by
      have b := Real.abs_sin_le_one (rad lat)
      generalize (m.sin (radians lat) : ℝ) = x at *
      generalize Real.sin (rad lat) = y at *
      have : |y ^ 2 - x ^ 2| ≤ 20 * w := by
        rw [show y ^ 2 - x ^ 2 = (y - x) * (y + x) by ring, abs_mul, abs_sub_comm]
        have := mul_le_mul s1 (abs_add_le y x) (abs_nonneg _) (by linarith)
        nlinarith
      have := (abs_le.mp this).2
      linarith
    have k3 : (40408299984000 : ℝ) * (m.sin (radians lat) : ℝ) ^ 2 ≤ B * (m.sin (radians lat) : ℝ) ^ 2 := mul_le_mul_of_nonneg_right bl' (sq_nonneg _)
    have k4 : (B : ℝ) * w ≤ 40408299985000 * w := mul_le_mul_of_nonneg_right bh' hw.le
    have k5 : (40680631590769 : ℝ) * w ≤ 1 := by rw [hq]; norm_num
    nlinarith [sq_nonneg (m.cos (radians lat) : ℝ)]
  obtain ⟨q, q0, q1, q2⟩ := mean_rel (A := 40680631590769) (B := B) (by linarith) (by push_cast; linarith) X0 Y0 (by exact_mod_cast sum)
  simp only [q0]
  push_cast at q1
  have qpos : (0 : ℝ) < q := by nlinarith
  have qpos' : 0 ≤ q := by exact_mod_cast qpos.le
  refine ⟨m.sqrt q, by rw [← sqrt_ok qpos']; rfl, ?_⟩
  obtain ⟨hd, hp, hn⟩ := hm.sqrt q qpos'
  have e := near_err (y := √(q : ℝ)) (r := m.sqrt q) ⟨hd, hn⟩
  rw [abs_of_nonneg (Real.sqrt_nonneg _)] at e
  have u1 : √(q : ℝ) ≤ 6378137 + 1 / 10000 := by
    rw [Real.sqrt_le_left (by norm_num)]
    refine q1.trans ?_
    rw [hq]
    norm_num
  have hb : wgsB = 426594426538365 / 67108864 := by decide +kernel
  have u2 : (426594426538365 / 67108864 : ℝ) - 1 / 10000 ≤ √(q : ℝ) := by
    apply Real.le_sqrt_of_sq_le
    refine le_trans ?_ q2
    rw [hq, hbb]
    norm_num
  obtain ⟨v1, v2⟩ := abs_le.mp e
  have hs := Real.sqrt_nonneg (q : ℝ)
  have v3 : √(q : ℝ) * (w / 2) ≤ 7000000 * (w / 2) := mul_le_mul_of_nonneg_right (by linarith) (by linarith)
  have v4 : 7000000 * (w / 2) + w / 1024 ≤ 1 / 10000 := by rw [hq]; norm_num
  constructor
  · have : ((426594426538365 / 67108864 - 1 / 1000 : ℚ) : ℝ) ≤ m.sqrt q := by push_cast; linarith
    rw [hb]
    exact_mod_cast this
  · have : (m.sqrt q : ℝ) ≤ ((6378137 + 1 / 1000 : ℚ) : ℝ) := by push_cast; linarith
    rw [wgsA]
    exact_mod_cast this

theorem mid_lat {lat1 lat2 : ℚ} (h1 : |lat1| ≤ 90) (h2 : |lat2| ≤ 90) : |fl (fl (lat1 + lat2) / 2)| ≤ 90 := by
  obtain ⟨a1, a2⟩ := abs_le.mp h1
  obtain ⟨b1, b2⟩ := abs_le.mp h2
  have d180 : IsDouble (180 : ℤ) := double_int (by norm_num)
  have d90 : IsDouble (90 : ℤ) := double_int (by norm_num)
  push_cast at d180 d90
  have c1 := fl_le d180 (by linarith : lat1 + lat2 ≤ 180)
  have c2 := le_fl (double_neg d180) (by linarith : -180 ≤ lat1 + lat2)
  exact abs_le.mpr ⟨le_fl (double_neg d90) (by linarith), fl_le d90 (by linarith)⟩

theorem radiusOf_ok {m : Libm} (hm : m.Rounds) {lat1 lat2 : ℚ} (h1 : |lat1| ≤ 90) (h2 : |lat2| ≤ 90) (R : Option ℚ) :
    ∃ r, radiusOf m lat1 lat2 R = .ok r := by
  cases R with
  | some r => exact ⟨r, rfl⟩
  | none =>
    obtain ⟨r, hr, -⟩ := C172_radius m hm _ (mid_lat h1 h2)
    exact ⟨r, hr⟩

/-- C172: with the default radius, too, `haversine` returns a number for points that are not antipodes up to some metres on Earth. -/
theorem C172_returns_partial (m : Libm) (hm : m.Rounds) (lon1 lat1 lon2 lat2 : ℚ) (R : Option ℚ) (h1 : |lat1| ≤ 90) (h2 : |lat2| ≤ 90)
    (hl : |lon2 - lon1| ≤ 360) (ha : arc lon1 lat1 lon2 lat2 ≤ Real.pi - 2 ^ (-20 : ℤ)) : ∃ d, haversine m lon1 lat1 lon2 lat2 R = .ok d := by
  obtain ⟨r, hr⟩ := radiusOf_ok hm h1 h2 R
  refine ⟨_, haversine_ok hr (hav_nonneg hm h1 h2) ?_⟩
  have e := (abs_le.mp (hav_err hm h1 h2 hl)).2
  have f := far_from_antipode ha
  have : (hav m lon1 lat1 lon2 lat2 : ℝ) ≤ 1 := by linarith
  exact_mod_cast this

theorem sin_zero {m : Libm} (hm : m.Rounds) : m.sin 0 = 0 := near_id (hm.sin 0) double_zero (by simp)
theorem cos_zero {m : Libm} (hm : m.Rounds) : m.cos 0 = 1 := near_id (hm.cos 0) double_one (by simp)
theorem fl_zero : fl 0 = 0 := fl_id double_zero
theorem fl_one : fl 1 = 1 := fl_id double_one
theorem radians_zero : radians 0 = 0 := by rw [radians, zero_mul, fl_zero]

/-- C172: the distance of a point from itself is zero, exactly. -/
theorem C172_same_point (m : Libm) (hm : m.Rounds) (lon lat : ℚ) (R : Option ℚ) (h : |lat| ≤ 90) : haversine m lon lat lon lat R = .ok 0 := by
  have ha : hav m lon lat lon lat = 0 := by
    simp only [hav, sub_self, fl_zero, radians_zero, zero_div, sin_zero hm, zero_mul, add_zero]
  obtain ⟨r, hr⟩ := radiusOf_ok hm h h R
  rw [haversine_ok hr (by rw [ha]) (by rw [ha]; norm_num), ha]
  have s0 : m.sqrt 0 = 0 := by
    obtain ⟨a, -, b⟩ := hm.sqrt 0 le_rfl
    exact near_id (y := √((0 : ℚ) : ℝ)) ⟨a, b⟩ double_zero (by simp)
  have s1 : m.sqrt (fl (1 - 0)) = 1 := by
    rw [sub_zero, fl_one]
    obtain ⟨a, -, b⟩ := hm.sqrt 1 zero_le_one
    exact near_id (y := √((1 : ℚ) : ℝ)) ⟨a, b⟩ double_one (by simp)
  have t : m.atan2 0 1 = 0 := near_id (hm.atan2 0 1) double_zero (by
    rw [Coral.atan2]
    push_cast
    exact Complex.arg_eq_zero_iff.mpr ⟨by norm_num, rfl⟩)
  rw [s0, s1, t, mul_zero, fl_zero, mul_zero, fl_zero]

/-! ### Antipodes -/

/-- The sine of the angle that floats have for 90 degrees is rounded to 1. -/
theorem sin_right {m : Libm} (hm : m.Rounds) : m.sin (piD / 2) = 1 := by
  have h1 := Real.pi_gt_d20
  have h2 := Real.pi_lt_d20
  have k : 1 - (Real.pi / 2 - piD / 2) ^ 2 / 2 ≤ Real.sin ((piD / 2 : ℚ) : ℝ) := by
    have := Real.one_sub_sq_div_two_le_cos (x := Real.pi / 2 - piD / 2)
    rw [Real.cos_pi_div_two_sub] at this
    push_cast
    exact this
  have k2 : (Real.pi / 2 - piD / 2 : ℝ) ^ 2 ≤ (1 / 10 ^ 15) ^ 2 := by
    have := piD_lt
    rw [piD] at this ⊢
    push_cast at this ⊢
    refine pow_le_pow_left₀ (by linarith) ?_ 2
    norm_num at h2 ⊢
    linarith
  have e : fl (1 - 1 / 10 ^ 20) = 1 := by decide +kernel
  have e2 : fl (1 + 1 / 10 ^ 20) = 1 := by decide +kernel
  refine near_eq (hm.sin _) (lo := 1 - 1 / 10 ^ 20) (hi := 1 + 1 / 10 ^ 20) ?_ ?_ e e2
  · push_cast
    norm_num at k2 ⊢
    push_cast at k
    linarith
  · refine lt_of_le_of_lt (Real.sin_le_one _) ?_
    push_cast
    norm_num

theorem eight : radians 8 = 5030569068109113 / 36028797018963968 ∧ radians (-8) = -(5030569068109113 / 36028797018963968) ∧
    fl (radians (fl (-8 - 8)) / 2) = -(5030569068109113 / 36028797018963968) ∧ fl (radians (fl (180 - 0)) / 2) = piD / 2 := by decide +kernel

theorem hav_eight {m : Libm} (hm : m.Rounds) : hav m 0 8 180 (-8) = 1 + 2 ^ (-52 : ℤ) := by
  obtain ⟨e1, e2, e3, e4⟩ := eight
  have c1 : m.cos (5030569068109113 / 36028797018963968) = 4459770905381437 / 4503599627370496 :=
    cos_eq hm _ _ (1 / 10 ^ 22) 8 (by decide +kernel) (by decide +kernel) (by decide +kernel) (by decide +kernel)
  have c2 : m.cos (-(5030569068109113 / 36028797018963968)) = 4459770905381437 / 4503599627370496 :=
    cos_eq hm _ _ (1 / 10 ^ 22) 8 (by decide +kernel) (by decide +kernel) (by decide +kernel) (by decide +kernel)
  have s1 : m.sin (-(5030569068109113 / 36028797018963968)) = -(5014239404989977 / 36028797018963968) :=
    sin_eq hm _ _ (1 / 10 ^ 22) 8 (by decide +kernel) (by decide +kernel) (by decide +kernel) (by decide +kernel)
  simp only [hav, e1, e2, e3, e4, c1, c2, s1, sin_right hm]
  decide +kernel

/-- C172: with correctly rounded functions `haversine(0, 8, 180, -8)` raises `ValueError`: the points are antipodes. -/
theorem C172_antipodes_violated (m : Libm) (hm : m.Rounds) (R : Option ℚ) : haversine m 0 8 180 (-8) R = .error .valueError := by
  obtain ⟨r, hr⟩ := radiusOf_ok hm (lat1 := 8) (lat2 := -8) (by norm_num) (by norm_num) R
  have h := hav_eight hm
  have p1 : m.pySqrt (1 + 2 ^ (-52 : ℤ)) = .ok (m.sqrt (1 + 2 ^ (-52 : ℤ))) := sqrt_ok (by positivity)
  have p2 : m.pySqrt (fl (1 - (1 + 2 ^ (-52 : ℤ)))) = .error .valueError := by
    rw [Libm.pySqrt, if_pos (by decide +kernel)]
  cases R with
  | some r' =>
    simp only [haversine, h, p1, p2]
    rfl
  | none =>
    rw [radiusOf] at hr
    simp only [haversine, h, p1, p2, hr]
    rfl

/-- The hypotheses can be met: a correctly rounded library exists, and there are points that are not antipodes. -/
example : ∃ m : Libm, m.Rounds := exists_rounds

example : arc ((10 : ℚ) : ℝ) ((50 : ℚ) : ℝ) ((10 : ℚ) : ℝ) ((50 : ℚ) : ℝ) ≤ Real.pi - 2 ^ (-20 : ℤ) := by
  rw [Sph.arc_eq_zero.mpr rfl]
  have := Real.pi_gt_three
  norm_num
  linarith

/-- The claim that is violated is true of exact arithmetic. -/
example (R : ℝ) : Sph.haversine 0 8 180 (-8) (some R) = .ok (R * arc 0 8 180 (-8)) := Sph.haversine_eq _ _ _ _ _

end Flt
end Coral
