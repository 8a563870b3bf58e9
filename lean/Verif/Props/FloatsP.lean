import Verif.Props.FloatsM
import Verif.Props.FloatsU
import Verif.Model.FloatsP

/-!
# The stereographic and the azimuthal equal-area projections on floats (C183)
-/
namespace Coral
namespace Flt

open Spec (arc)
open Sph (arc_nonneg arc_le_pi)

/-- The sum that divides 2 is off by less than 75 units. -/
theorem denom_err {m : Libm} (hm : m.Rounds) {lon0 lat0 r lon lat : ℚ} (h0 : |lat0| ≤ 90) (h1 : |lat| ≤ 90) (l0 : |lon0| ≤ 360) (l1 : |lon| ≤ 360) :
    |((Equidistant.init m lon0 lat0 r).denom m (radians lon) (radians lat) : ℝ) - (1 + Real.cos (arc lon lat lon0 lat0))| ≤ 75 * w := by
  have hw := w_pos
  have hle := w_le
  have h0' := abs_real h0
  have h1' := abs_real h1
  have l0' := abs_real l0
  have l1' := abs_real l1
  push_cast at h0' h1' l0' l1'
  obtain ⟨s0, s0'⟩ := sin_err hm (radians_err (x := lat0) (by linarith))
  obtain ⟨s1, s1'⟩ := sin_err hm (radians_err (x := lat) (by linarith))
  obtain ⟨c0, c0'⟩ := cos_err hm (radians_err (x := lat0) (by linarith))
  obtain ⟨c1, c1'⟩ := cos_err hm (radians_err (x := lat) (by linarith))
  have d := lon_err l0' l1'
  obtain ⟨k, k'⟩ := cos_err hm d
  obtain ⟨a, a'⟩ := mul_err s0' s1' (Real.abs_sin_le_one _) s0 s1
  obtain ⟨b, b'⟩ := mul_err c0' c1' (Real.abs_cos_le_one _) c0 c1
  have hA : |Real.cos (rad lat0) * Real.cos (rad lat)| ≤ 1 := by
    rw [abs_mul]
    exact mul_le_one₀ (Real.abs_cos_le_one _) (abs_nonneg _) (Real.abs_cos_le_one _)
  have hX : |Real.sin (rad lat0) * Real.sin (rad lat)| ≤ 1 := by
    rw [abs_mul]
    exact mul_le_one₀ (Real.abs_sin_le_one _) (abs_nonneg _) (Real.abs_sin_le_one _)
  obtain ⟨c, c'⟩ := mul_err b' k' hA b k
  have ho := Real.abs_cos_le_one (arc lon lat lon0 lat0)
  rw [Sph.cos_arc, Sph.dot] at *
  simp only [Equidistant.denom, Equidistant.init]
  generalize fl (m.sin (radians lat0) * m.sin (radians lat)) = x at *
  generalize fl (fl (m.cos (radians lat0) * m.cos (radians lat)) * m.cos (fl (radians lon - radians lon0))) = y at *
  rw [show Real.cos (rad lat) * Real.cos (rad lat0) * Real.cos (rad lon - rad lon0) + Real.sin (rad lat) * Real.sin (rad lat0) =
    Real.sin (rad lat0) * Real.sin (rad lat) + Real.cos (rad lat0) * Real.cos (rad lat) * Real.cos (rad lon - rad lon0) by ring] at *
  generalize Real.sin (rad lat0) * Real.sin (rad lat) = X at *
  generalize Real.cos (rad lat0) * Real.cos (rad lat) * Real.cos (rad lon - rad lon0) = Y at *
  have u : |(fl (1 + x) : ℝ) - (1 + X)| ≤ 23 * w := by
    have := fl_step (x := 1 + x) (X := 1 + X) (e := 21 * w) (B := 2) (by push_cast; rw [show (1 : ℝ) + x - (1 + X) = x - X by ring]; linarith)
      ((abs_add_le _ _).trans (by rw [abs_one]; linarith)) (by linarith)
    linarith
  generalize fl (1 + x) = v at *
  have := fl_step (x := v + y) (X := 1 + (X + Y)) (e := 72 * w) (B := 2)
    (by
      push_cast
      rw [show (v : ℝ) + y - (1 + (X + Y)) = (v - (1 + X)) + (y - Y) by ring]
      exact (abs_add_le _ _).trans (by linarith))
    ((abs_add_le _ _).trans (by rw [abs_one]; linarith)) (by linarith)
  linarith

/-- The quotient `2 / (1 + cos c)` where the divisor is at least `h`. -/
theorem quotient_err {n : ℚ} {N h : ℝ} (h0 : 2 ^ (-20 : ℤ) ≤ h) (h1 : h ≤ 1) (hN : h ≤ N) (hn : |(n : ℝ) - N| ≤ 75 * w) :
    0 < n ∧ 2 / N ≤ 2 / h ∧ |(fl (2 / n) : ℝ) - 2 / N| ≤ 300 * (w / h ^ 2) := by
  have hw := w_pos
  have hs : 300 * w ≤ h ^ 2 / 10 := by
    have a : ((2 : ℝ) ^ (-20 : ℤ)) ^ 2 ≤ h ^ 2 := pow_le_pow_left₀ (by positivity) h0 2
    have b : 300 * w ≤ ((2 : ℝ) ^ (-20 : ℤ)) ^ 2 / 10 := by rw [w_eq]; norm_num
    exact b.trans (by generalize ((2 : ℝ) ^ (-20 : ℤ)) ^ 2 = t at *; linarith)
  have hp : 0 < h := lt_of_lt_of_le (by positivity) h0
  have hq : 0 < h ^ 2 := by positivity
  have hq1 : h ^ 2 ≤ h := by nlinarith
  obtain ⟨n1, n2⟩ := abs_le.mp hn
  have hnh : h / 2 ≤ n := by linarith
  have hn0 : (0 : ℝ) < n := by linarith
  have hN0 : 0 < N := by linarith
  have K : 2 / N ≤ 2 / h := div_le_div_of_nonneg_left (by norm_num) hp hN
  have V : 300 * (w / h ^ 2) ≤ 1 := by
    rw [← mul_div_assoc, div_le_one hq]
    linarith
  have a : |(2 : ℝ) / n - 2 / N| ≤ 297 * (w / h ^ 2) - 0 := by
    rw [div_sub_div _ _ hn0.ne' hN0.ne', abs_div, abs_of_pos (mul_pos hn0 hN0), div_le_iff₀ (mul_pos hn0 hN0), show (2 : ℝ) * N - n * 2 = -(2 * (n - N)) by ring, abs_neg,
      abs_mul, abs_two]
    have hh : 9 / 10 * h ≤ n := by linarith
    have p : 9 / 10 * h ^ 2 ≤ n * N := by
      have := mul_le_mul hh hN hp.le hn0.le
      nlinarith
    have q := mul_le_mul_of_nonneg_left p (by positivity : 0 ≤ 297 * (w / h ^ 2))
    have e : 297 * (w / h ^ 2) * (9 / 10 * h ^ 2) = 297 * 9 / 10 * w := by field_simp
    rw [e] at q
    linarith
  have b : |(2 : ℝ) / N| ≤ 2 / h := by rw [abs_of_pos (by positivity)]; exact K
  have c := fl_step (x := 2 / n) (X := 2 / N) (e := 297 * (w / h ^ 2)) (B := 2 / h) (by push_cast; linarith) b (by
    have : 0 ≤ w / h ^ 2 := by positivity
    linarith)
  refine ⟨by exact_mod_cast hn0, K, c.trans ?_⟩
  have d : (2 / h + 2) * (w / 2) ≤ 2 * (w / h ^ 2) := by
    have e : (2 / h + 2) * (w / 2) = (h + h ^ 2) * (w / h ^ 2) := by field_simp
    rw [e]
    exact mul_le_mul_of_nonneg_right (by linarith) (by positivity)
  have : 0 ≤ w / h ^ 2 := by positivity
  linarith

/-- A coordinate of the plane. -/
theorem plane_err {r k p : ℚ} {K P h : ℝ} (hr : 1 ≤ r) (h0 : 2 ^ (-20 : ℤ) ≤ h) (h1 : h ≤ 1) (K0 : 0 ≤ K) (K1 : K ≤ 2 / h)
    (hk : |(k : ℝ) - K| ≤ 302 * (w / h ^ 2)) (hP : |P| ≤ 1) (hp : |(p : ℝ) - P| ≤ 72 * w) : |(fl (fl (r * k) * p) : ℝ) - r * K * P| ≤ r * (512 * (w / h ^ 2)) := by
  have hw := w_pos
  have hle := w_le
  have hr' : (1 : ℝ) ≤ r := by exact_mod_cast hr
  have hp0 : 0 < h := lt_of_lt_of_le (by positivity) h0
  have hq : 0 < h ^ 2 := by positivity
  have hq1 : h ^ 2 ≤ h := by nlinarith
  have V0 : 0 ≤ w / h ^ 2 := by positivity
  have V1 : 1000 * (w / h ^ 2) ≤ 1 := by
    rw [← mul_div_assoc, div_le_one hq]
    have a : ((2 : ℝ) ^ (-20 : ℤ)) ^ 2 ≤ h ^ 2 := pow_le_pow_left₀ (by positivity) h0 2
    have b : 1000 * w ≤ ((2 : ℝ) ^ (-20 : ℤ)) ^ 2 := by rw [w_eq]; norm_num
    linarith
  have d : (2 / h + 2) * (w / 2) ≤ 2 * (w / h ^ 2) := by
    have e : (2 / h + 2) * (w / 2) = (h + h ^ 2) * (w / h ^ 2) := by field_simp
    rw [e]
    exact mul_le_mul_of_nonneg_right (by linarith) V0
  have wh : 2 / h * w ≤ 2 * (w / h ^ 2) := by
    have e : 2 / h * w = 2 * h * (w / h ^ 2) := by field_simp
    rw [e]
    exact mul_le_mul_of_nonneg_right (by linarith) V0
  have a1 := scaled hr hk (B := 2 / h) (by rw [abs_of_nonneg K0]; exact K1) (by linarith)
  have a2 : |(fl (r * k) : ℝ) - r * K| ≤ r * (304 * (w / h ^ 2)) := a1.trans (mul_le_mul_of_nonneg_left (by linarith) (by linarith))
  generalize fl (r * k) = v at *
  have p1 : |(p : ℝ)| ≤ 1001 / 1000 := by
    have := abs_sub_abs_le_abs_sub (p : ℝ) P
    linarith
  have e4 : |(v : ℝ) * p - r * K * P| ≤ r * (450 * (w / h ^ 2)) := by
    rw [show (v : ℝ) * p - r * K * P = (v - r * K) * p + r * (K * (p - P)) by ring]
    refine (abs_add_le _ _).trans ?_
    rw [abs_mul, abs_mul (r : ℝ), abs_of_nonneg (by linarith : (0 : ℝ) ≤ r), abs_mul, abs_of_nonneg K0]
    have a := mul_le_mul a2 p1 (abs_nonneg _) (by positivity)
    have b : K * |(p : ℝ) - P| ≤ 144 * (w / h ^ 2) := by
      have := mul_le_mul K1 hp (abs_nonneg _) (by positivity)
      linarith
    have c := mul_le_mul_of_nonneg_left b (by linarith : (0 : ℝ) ≤ r)
    have e : (r : ℝ) * (304 * (w / h ^ 2)) * (1001 / 1000) = r * (304 * (1001 / 1000) * (w / h ^ 2)) := by ring
    have f : (r : ℝ) * (304 * (1001 / 1000) * (w / h ^ 2)) + r * (144 * (w / h ^ 2)) ≤ r * (450 * (w / h ^ 2)) := by
      rw [← mul_add]
      exact mul_le_mul_of_nonneg_left (by linarith) (by linarith)
    linarith
  have e5 := fl_err_real (v * p)
  push_cast at e5
  have vp : |(v : ℝ) * p| ≤ r * (2 / h + 1) := by
    have a := abs_sub_abs_le_abs_sub ((v : ℝ) * p) (r * K * P)
    have b : |(r : ℝ) * K * P| ≤ r * (2 / h) := by
      rw [mul_assoc, abs_mul, abs_of_nonneg (by linarith : (0 : ℝ) ≤ r), abs_mul, abs_of_nonneg K0]
      refine mul_le_mul_of_nonneg_left ?_ (by linarith)
      have := mul_le_mul K1 hP (abs_nonneg _) (by positivity)
      linarith
    have c : (r : ℝ) * (450 * (w / h ^ 2)) ≤ r * 1 := mul_le_mul_of_nonneg_left (by linarith) (by linarith)
    linarith
  have e6 : |(fl (v * p) : ℝ) - v * p| ≤ r * (3 * (w / h ^ 2)) := by
    have b := mul_le_mul_of_nonneg_right vp (by linarith : 0 ≤ w / 2)
    have c : (r : ℝ) * (2 / h + 1) * (w / 2) ≤ r * (2 * (w / h ^ 2)) := by
      rw [mul_assoc]
      exact mul_le_mul_of_nonneg_left (by linarith) (by linarith)
    have wV : w ≤ w / h ^ 2 := by
      rw [le_div_iff₀ hq]
      nlinarith
    have f : w ≤ (r : ℝ) * (w / h ^ 2) := wV.trans (le_mul_of_one_le_left V0 hr')
    linarith
  have e7 := abs_sub_le (fl (v * p) : ℝ) (v * p) (r * K * P)
  have e8 : (r : ℝ) * (3 * (w / h ^ 2)) + r * (450 * (w / h ^ 2)) ≤ r * (512 * (w / h ^ 2)) := by
    rw [← mul_add]
    exact mul_le_mul_of_nonneg_left (by linarith) (by linarith)
  linarith

/-- The two coordinates of the plane at a scale. -/
theorem planes_err {m : Libm} (hm : m.Rounds) {lon0 lat0 r lon lat k : ℚ} {K h : ℝ} (h0 : |lat0| ≤ 90) (h1 : |lat| ≤ 90) (l0 : |lon0| ≤ 360)
    (l1 : |lon| ≤ 360) (hr : 1 ≤ r) (hh0 : 2 ^ (-20 : ℤ) ≤ h) (hh1 : h ≤ 1) (K0 : 0 ≤ K) (K1 : K ≤ 2 / h) (hk : |(k : ℝ) - K| ≤ 302 * (w / h ^ 2)) :
    |(((Equidistant.init m lon0 lat0 r).plane m k (radians lon) (radians lat)).1 : ℝ) -
        (Proj.plane (Proj.Sphere.new (some ((lon0 : ℝ), (lat0 : ℝ))) (some (r : ℝ))) K lon lat).1| ≤ r * (512 * (w / h ^ 2)) ∧
      |(((Equidistant.init m lon0 lat0 r).plane m k (radians lon) (radians lat)).2 : ℝ) -
        (Proj.plane (Proj.Sphere.new (some ((lon0 : ℝ), (lat0 : ℝ))) (some (r : ℝ))) K lon lat).2| ≤ r * (512 * (w / h ^ 2)) := by
  have hw := w_pos
  have hle := w_le
  have h0' := abs_real h0
  have h1' := abs_real h1
  have l0' := abs_real l0
  have l1' := abs_real l1
  push_cast at h0' h1' l0' l1'
  obtain ⟨s0, s0'⟩ := sin_err hm (radians_err (x := lat0) (by linarith))
  obtain ⟨s1, s1'⟩ := sin_err hm (radians_err (x := lat) (by linarith))
  obtain ⟨c0, c0'⟩ := cos_err hm (radians_err (x := lat0) (by linarith))
  obtain ⟨c1, c1'⟩ := cos_err hm (radians_err (x := lat) (by linarith))
  have d := lon_err l0' l1'
  obtain ⟨k', k''⟩ := cos_err hm d
  obtain ⟨t, t'⟩ := sin_err hm d
  obtain ⟨E, E'⟩ := mul_err c1' t' (Real.abs_cos_le_one _) c1 t
  obtain ⟨F, F'⟩ := mul_err c0' s1' (Real.abs_cos_le_one _) c0 s1
  obtain ⟨G, G'⟩ := mul_err s0' c1' (Real.abs_sin_le_one _) s0 c1
  have hA : |Real.sin (rad lat0) * Real.cos (rad lat)| ≤ 1 := by
    rw [abs_mul]
    exact mul_le_one₀ (Real.abs_sin_le_one _) (abs_nonneg _) (Real.abs_cos_le_one _)
  obtain ⟨H, H'⟩ := mul_err G' k'' hA G k'
  have hsq := Proj.sin_away_sq (Proj.Sphere.new (some ((lon0 : ℝ), (lat0 : ℝ))) (some (r : ℝ))) lon lat
  have hs1 := Real.sin_sq_le_one (Proj.away (Proj.Sphere.new (some ((lon0 : ℝ), (lat0 : ℝ))) (some (r : ℝ))) lon lat)
  constructor
  · refine plane_err hr hh0 hh1 K0 K1 hk (P := Real.cos (rad lat) * Real.sin (rad lon - rad lon0)) ?_ (E.trans (by linarith))
    refine abs_le_of_sq_le_sq ?_ zero_le_one
    rw [one_pow]
    refine le_trans ?_ hs1
    rw [hsq]
    exact le_add_of_nonneg_right (sq_nonneg _)
  · refine plane_err hr hh0 hh1 K0 K1 hk (P := Real.cos (rad lat0) * Real.sin (rad lat) - Real.sin (rad lat0) * Real.cos (rad lat) * Real.cos (rad lon - rad lon0)) ?_ ?_
    · refine abs_le_of_sq_le_sq ?_ zero_le_one
      rw [one_pow]
      refine le_trans ?_ hs1
      rw [hsq]
      exact le_add_of_nonneg_left (sq_nonneg _)
    · change |((fl (fl (m.cos (radians lat0) * m.sin (radians lat)) - fl (fl (m.sin (radians lat0) * m.cos (radians lat)) * m.cos (fl (radians lon - radians lon0)))) : ℚ) : ℝ) - _| ≤ _
      generalize fl (m.cos (radians lat0) * m.sin (radians lat)) = x at *
      generalize fl (fl (m.sin (radians lat0) * m.cos (radians lat)) * m.cos (fl (radians lon - radians lon0))) = y at *
      generalize Real.cos (rad lat0) * Real.sin (rad lat) = X at *
      generalize Real.sin (rad lat0) * Real.cos (rad lat) * Real.cos (rad lon - rad lon0) = Y at *
      have e := fl_err_real (x - y)
      push_cast at e
      have f : |(x : ℝ) - y| ≤ 2 := (abs_sub _ _).trans (by linarith)
      have f' := mul_le_mul_of_nonneg_right f (by linarith : (0 : ℝ) ≤ w / 2)
      have g1 := abs_sub_le (fl (x - y) : ℝ) ((x : ℝ) - y) (X - Y)
      have g2 : |(x : ℝ) - y - (X - Y)| ≤ |(x : ℝ) - X| + |(y : ℝ) - Y| := by
        rw [show (x : ℝ) - y - (X - Y) = (x - X) - (y - Y) by ring]
        exact abs_sub _ _
      linarith

theorem cosDist_arc (lon0 lat0 r : ℚ) (lon lat : ℝ) : Proj.cosDist (Proj.Sphere.new (some ((lon0 : ℝ), (lat0 : ℝ))) (some (r : ℝ))) lon lat = Real.cos (arc lon lat lon0 lat0) := by
  rw [Sph.cos_arc, Sph.dot, Proj.cosDist]
  change Real.sin (rad lat0) * Real.sin (rad lat) + Real.cos (rad lat0) * Real.cos (rad lat) * Real.cos (rad lon - rad lon0) = _
  ring

theorem unit_eq {h : ℝ} : 512 * (w / h ^ 2) = 2 ^ (-43 : ℤ) / h ^ 2 := by
  rw [← mul_div_assoc]
  congr 1
  rw [w_eq]
  norm_num

/-- C183: `Stereographic.geo2rect` on floats returns a point of the plane for every position but those near the antipode of the centre, and the point
is off by at most `r · 2⁻⁴³ / h²` where `1 + cos c` is at least `h`, `c` being the distance from the centre as an angle. Missing: the positions near
the antipode, see `C183_antipode_violated`. -/
theorem C183_stereographic_partial (m : Libm) (hm : m.Rounds) (lon0 lat0 r lon lat : ℚ) (h : ℝ) (h0 : |lat0| ≤ 90) (h1 : |lat| ≤ 90) (l0 : |lon0| ≤ 360)
    (l1 : |lon| ≤ 360) (hr : 1 ≤ r) (hh0 : 2 ^ (-20 : ℤ) ≤ h) (hh1 : h ≤ 1) (hh : h ≤ 1 + Real.cos (arc lon lat lon0 lat0)) :
    ∃ x y X Y, stereographic m (Equidistant.init m lon0 lat0 r) lon lat = .ok (x, y) ∧
      Proj.Stereographic.geo2rect (Proj.Sphere.new (some ((lon0 : ℝ), (lat0 : ℝ))) (some (r : ℝ))) lon lat = .ok (X, Y) ∧
      |(x : ℝ) - X| ≤ r * (2 ^ (-43 : ℤ) / h ^ 2) ∧ |(y : ℝ) - Y| ≤ r * (2 ^ (-43 : ℤ) / h ^ 2) := by
  have hw := w_pos
  have hp0 : 0 < h := lt_of_lt_of_le (by positivity) hh0
  obtain ⟨n0, K1, ke⟩ := quotient_err hh0 hh1 hh (denom_err hm (r := r) h0 h1 l0 l1)
  have hN : 0 < 1 + Real.cos (arc lon lat lon0 lat0) := by linarith
  have V0 : 0 ≤ w / h ^ 2 := by positivity
  obtain ⟨e1, e2⟩ := planes_err hm h0 h1 l0 l1 hr hh0 hh1 (div_nonneg zero_le_two hN.le) K1 (ke.trans (by linarith))
  rw [unit_eq] at e1 e2
  refine ⟨_, _, _, _, ?_, ?_, e1, e2⟩
  · rw [stereographic, div, if_neg n0.ne']
    rfl
  · rw [Proj.Stereographic.geo2rect, rdiv, cosDist_arc, if_neg hN.ne']
    rfl

/-- Roots of numbers of which one is at least 1. -/
theorem root_close {q Q : ℝ} (h0 : 0 ≤ q) (h1 : 1 ≤ Q) : |√q - √Q| ≤ |q - Q| := by
  have a := Real.sq_sqrt h0
  have b := Real.sq_sqrt (by linarith : 0 ≤ Q)
  have c := Real.sqrt_nonneg q
  have d : 1 ≤ √Q := Real.one_le_sqrt.mpr h1
  have e : q - Q = (√q - √Q) * (√q + √Q) := by linear_combination b - a
  rw [show |q - Q| = |√q - √Q| * |√q + √Q| by rw [← abs_mul, ← e]]
  refine le_mul_of_one_le_right (abs_nonneg _) ?_
  rw [abs_of_nonneg (by linarith)]
  linarith

/-- C183: the same holds of `AzimuthalEqualArea.geo2rect`. -/
theorem C183_equal_area_partial (m : Libm) (hm : m.Rounds) (lon0 lat0 r lon lat : ℚ) (h : ℝ) (h0 : |lat0| ≤ 90) (h1 : |lat| ≤ 90) (l0 : |lon0| ≤ 360)
    (l1 : |lon| ≤ 360) (hr : 1 ≤ r) (hh0 : 2 ^ (-20 : ℤ) ≤ h) (hh1 : h ≤ 1) (hh : h ≤ 1 + Real.cos (arc lon lat lon0 lat0)) :
    ∃ x y X Y, equalArea m (Equidistant.init m lon0 lat0 r) lon lat = .ok (x, y) ∧
      Proj.AzimuthalEqualArea.geo2rect (Proj.Sphere.new (some ((lon0 : ℝ), (lat0 : ℝ))) (some (r : ℝ))) lon lat = .ok (X, Y) ∧
      |(x : ℝ) - X| ≤ r * (2 ^ (-43 : ℤ) / h ^ 2) ∧ |(y : ℝ) - Y| ≤ r * (2 ^ (-43 : ℤ) / h ^ 2) := by
  have hw := w_pos
  have hp0 : 0 < h := lt_of_lt_of_le (by positivity) hh0
  obtain ⟨n0, K1, ke⟩ := quotient_err hh0 hh1 hh (denom_err hm (r := r) h0 h1 l0 l1)
  have hN : 0 < 1 + Real.cos (arc lon lat lon0 lat0) := by linarith
  have hN2 : 1 + Real.cos (arc lon lat lon0 lat0) ≤ 2 := by
    have := Real.cos_le_one (arc lon lat lon0 lat0)
    linarith
  have V0 : 0 ≤ w / h ^ 2 := by positivity
  have Q1 : 1 ≤ 2 / (1 + Real.cos (arc lon lat lon0 lat0)) := by rw [le_div_iff₀ hN]; linarith
  have q0 : 0 ≤ fl (2 / (Equidistant.init m lon0 lat0 r).denom m (radians lon) (radians lat)) := fl_nonneg (div_nonneg zero_le_two n0.le)
  have q0' : (0 : ℝ) ≤ fl (2 / (Equidistant.init m lon0 lat0 r).denom m (radians lon) (radians lat)) := by exact_mod_cast q0
  have R := (root_close q0' Q1).trans ke
  have s1 : √(2 / (1 + Real.cos (arc lon lat lon0 lat0))) ≤ 2 / h := by
    refine le_trans ?_ K1
    rw [Real.sqrt_le_left (by linarith)]
    nlinarith
  have V1 : 300 * (w / h ^ 2) ≤ 1 := by
    rw [← mul_div_assoc, div_le_one (by positivity)]
    have a : ((2 : ℝ) ^ (-20 : ℤ)) ^ 2 ≤ h ^ 2 := pow_le_pow_left₀ (by positivity) hh0 2
    have b : 300 * w ≤ ((2 : ℝ) ^ (-20 : ℤ)) ^ 2 := by rw [w_eq]; norm_num
    linarith
  have d : (2 / h + 2) * (w / 2) ≤ 2 * (w / h ^ 2) := by
    have e : (2 / h + 2) * (w / 2) = (h + h ^ 2) * (w / h ^ 2) := by field_simp
    rw [e]
    exact mul_le_mul_of_nonneg_right (by nlinarith) V0
  have ks := near_step ⟨(hm.sqrt _ q0).1, (hm.sqrt _ q0).2.2⟩ R (B := 2 / h) (by rw [abs_of_nonneg (Real.sqrt_nonneg _)]; exact s1) V1
  obtain ⟨e1, e2⟩ := planes_err hm h0 h1 l0 l1 hr hh0 hh1 (Real.sqrt_nonneg _) s1 (ks.trans (by linarith))
  rw [unit_eq] at e1 e2
  refine ⟨_, _, _, _, ?_, ?_, e1, e2⟩
  · rw [equalArea, div, if_neg n0.ne']
    change (do
      let k ← m.pySqrt (fl (2 / (Equidistant.init m lon0 lat0 r).denom m (radians lon) (radians lat)))
      return (Equidistant.init m lon0 lat0 r).plane m k (radians lon) (radians lat)) = _
    rw [sqrt_ok q0]
    rfl
  · rw [Proj.AzimuthalEqualArea.geo2rect, rdiv, cosDist_arc, if_neg hN.ne']
    change (do
      let k ← rsqrt (2 / (1 + Real.cos (arc lon lat lon0 lat0)))
      return Proj.plane (Proj.Sphere.new (some ((lon0 : ℝ), (lat0 : ℝ))) (some (r : ℝ))) k lon lat) = _
    rw [rsqrt, if_neg (by linarith)]
    rfl

/-- The cosine of an angle close to a half turn is rounded to -1. -/
theorem cos_half_turn {m : Libm} (hm : m.Rounds) {x : ℚ} (h : |(x : ℝ) - Real.pi| ≤ 2 ^ (-27 : ℤ)) : m.cos x = -1 := by
  have c : Real.cos x ≤ -(1 - ((x : ℝ) - Real.pi) ^ 2 / 2) := by
    have := Real.one_sub_sq_div_two_le_cos (x := (x : ℝ) - Real.pi)
    rw [Real.cos_sub_pi] at this
    linarith
  have s : ((x : ℝ) - Real.pi) ^ 2 ≤ (2 ^ (-27 : ℤ)) ^ 2 := by
    rw [← sq_abs]
    exact pow_le_pow_left₀ (abs_nonneg _) h 2
  have s2 : ((2 : ℝ) ^ (-27 : ℤ)) ^ 2 = 1 / 2 ^ 54 := by norm_num
  rw [s2] at s
  refine near_eq (hm.cos x) (lo := -1 - 3 / 2 ^ 56) (hi := -1 + 3 / 2 ^ 56) ?_ ?_ (by decide +kernel) (by decide +kernel)
  · refine lt_of_lt_of_le ?_ (Real.neg_one_le_cos _)
    push_cast
    norm_num
  · push_cast
    generalize ((x : ℝ) - Real.pi) ^ 2 = t at *
    refine lt_of_le_of_lt c ?_
    have : (3 : ℝ) / 2 ^ 56 = 3 / 4 * (1 / 2 ^ 54) := by norm_num
    rw [this]
    have : (0 : ℝ) < 1 / 2 ^ 54 := by positivity
    generalize (1 : ℝ) / 2 ^ 54 = z at *
    linarith

/-- The longitude 180° − 2⁻²²° in radians. -/
theorem nearly_half_turn {m : Libm} (hm : m.Rounds) : m.cos (fl (radians (180 - 2 ^ (-22 : ℤ)) - 0)) = -1 := by
  refine cos_half_turn hm ?_
  have e : |fl (radians (180 - 2 ^ (-22 : ℤ)) - 0) - piD| ≤ 1 / 2 ^ 28 + 1 / 2 ^ 29 := by decide +kernel
  have e' := abs_real e
  have h := piD_err
  push_cast at e'
  refine (abs_sub_le _ (piD : ℝ) _).trans ((add_le_add e' h).trans ?_)
  rw [w_eq]
  norm_num

/-- C183: a position that is not the antipode of the centre, though some centimetres from it on Earth, makes both projections raise
`ZeroDivisionError`. -/
theorem C183_antipode_violated (m : Libm) (hm : m.Rounds) (r : ℚ) :
    stereographic m (Equidistant.init m 0 0 r) (180 - 2 ^ (-22 : ℤ)) 0 = .error .zeroDivisionError ∧
      equalArea m (Equidistant.init m 0 0 r) (180 - 2 ^ (-22 : ℤ)) 0 = .error .zeroDivisionError ∧
      arc (180 - 2 ^ (-22 : ℤ)) 0 0 0 < Real.pi := by
  have hd : (Equidistant.init m 0 0 r).denom m (radians (180 - 2 ^ (-22 : ℤ))) (radians 0) = 0 := by
    have := nearly_half_turn hm
    simp only [Equidistant.denom, Equidistant.init, radians_zero, sin_zero hm, cos_zero hm, this, mul_zero, one_mul, mul_one, add_zero, fl_zero, fl_one]
    decide +kernel
  refine ⟨?_, ?_, ?_⟩
  · rw [stereographic, hd]
    simp only [bind, Except.bind, div, if_true]
  · rw [equalArea, hd]
    simp only [bind, Except.bind, div, if_true]
  · refine lt_of_le_of_ne (arc_le_pi _ _ _ _) fun h => ?_
    have hc := Sph.cos_arc (180 - 2 ^ (-22 : ℤ)) 0 0 0
    rw [h, Real.cos_pi, Sph.dot] at hc
    have r0 : rad 0 = 0 := by simp [rad]
    rw [r0, Real.cos_zero, Real.sin_zero] at hc
    simp only [one_mul, mul_zero, add_zero, sub_zero] at hc
    have hp := Real.pi_pos
    have b : rad (180 - 2 ^ (-22 : ℤ)) < Real.pi ∧ 0 < rad (180 - 2 ^ (-22 : ℤ)) := by
      rw [rad]
      constructor <;> norm_num <;> nlinarith
    have := Real.strictAntiOn_cos (a := rad (180 - 2 ^ (-22 : ℤ))) (b := Real.pi) ⟨b.2.le, b.1.le⟩ ⟨hp.le, le_rfl⟩ b.1
    rw [Real.cos_pi, ← hc] at this
    exact lt_irrefl _ this

/-- The sum that divides 2 is negative at a position near the antipode of a centre at 8 degrees of latitude. -/
theorem denom_eight {m : Libm} (hm : m.Rounds) (r : ℚ) : (Equidistant.init m 0 8 r).denom m (radians (180 - 2 ^ (-22 : ℤ))) (radians (-8)) = -(2 ^ (-53 : ℤ)) := by
  obtain ⟨e1, e2, -, -⟩ := eight
  have c1 : m.cos (5030569068109113 / 36028797018963968) = 4459770905381437 / 4503599627370496 :=
    cos_eq hm _ _ (1 / 10 ^ 22) 8 (by decide +kernel) (by decide +kernel) (by decide +kernel) (by decide +kernel)
  have c2 : m.cos (-(5030569068109113 / 36028797018963968)) = 4459770905381437 / 4503599627370496 :=
    cos_eq hm _ _ (1 / 10 ^ 22) 8 (by decide +kernel) (by decide +kernel) (by decide +kernel) (by decide +kernel)
  have s1 : m.sin (5030569068109113 / 36028797018963968) = 5014239404989977 / 36028797018963968 :=
    sin_eq hm _ _ (1 / 10 ^ 22) 8 (by decide +kernel) (by decide +kernel) (by decide +kernel) (by decide +kernel)
  have s2 : m.sin (-(5030569068109113 / 36028797018963968)) = -(5014239404989977 / 36028797018963968) :=
    sin_eq hm _ _ (1 / 10 ^ 22) 8 (by decide +kernel) (by decide +kernel) (by decide +kernel) (by decide +kernel)
  have k := nearly_half_turn hm
  simp only [Equidistant.denom, Equidistant.init, radians_zero, e1, e2, c1, c2, s1, s2, k]
  decide +kernel

/-- C183: near the antipode of a centre at 8 degrees of latitude `AzimuthalEqualArea.geo2rect` raises `ValueError`. -/
theorem C183_value_error_violated (m : Libm) (hm : m.Rounds) (r : ℚ) :
    equalArea m (Equidistant.init m 0 8 r) (180 - 2 ^ (-22 : ℤ)) (-8) = .error .valueError := by
  have e : fl (2 / -(2 ^ (-53 : ℤ))) = -(2 ^ (54 : ℤ)) := by decide +kernel
  rw [equalArea, denom_eight hm, div, if_neg (by norm_num), e]
  change (do
    let k ← m.pySqrt (-(2 ^ (54 : ℤ)))
    return (Equidistant.init m 0 8 r).plane m k (radians (180 - 2 ^ (-22 : ℤ))) (radians (-8))) = _
  rw [Libm.pySqrt, if_pos (by norm_num)]
  rfl

theorem nearly_rad : 0 < rad (180 - 2 ^ (-22 : ℤ)) ∧ rad (180 - 2 ^ (-22 : ℤ)) < Real.pi := by
  have hp := Real.pi_pos
  rw [rad]
  constructor <;> norm_num <;> nlinarith

/-- The sine of that longitude. -/
theorem sine_small {m : Libm} (hm : m.Rounds) : 2 ^ (-29 : ℤ) ≤ m.sin (fl (radians (180 - 2 ^ (-22 : ℤ)) - 0)) := by
  refine le_near (hm.sin _) (double_pow (by norm_num)) ?_
  have e : 1 / 2 ^ 28 + 1 / 2 ^ 32 ≤ piD - fl (radians (180 - 2 ^ (-22 : ℤ)) - 0) ∧ piD - fl (radians (180 - 2 ^ (-22 : ℤ)) - 0) ≤ 1 := by decide +kernel
  have e1 := (Rat.cast_le (K := ℝ)).mpr e.1
  have e2 := (Rat.cast_le (K := ℝ)).mpr e.2
  have h := abs_le.mp piD_err
  have hw : w ≤ 1 / 2 ^ 32 := by rw [w_eq]; norm_num
  have hpi := Real.pi_lt_d2
  have hp3 := Real.pi_gt_three
  push_cast at e1 e2 ⊢
  generalize (fl (radians (180 - 2 ^ (-22 : ℤ)) - 0) : ℝ) = x at *
  rw [← Real.sin_pi_sub]
  have a0 : 1 / 2 ^ 28 ≤ Real.pi - x := by linarith [h.1]
  have a1 : Real.pi - x ≤ Real.pi / 2 := by
    have : (1 : ℝ) / 2 ^ 32 ≤ 1 / 10 := by norm_num
    linarith [h.1]
  have k := Real.mul_le_sin (x := Real.pi - x) (le_trans (by positivity) a0) a1
  refine le_trans ?_ k
  have : (2 : ℝ) ^ (-29 : ℤ) = 1 / 2 * (1 / 2 ^ 28) := by norm_num
  rw [this]
  refine mul_le_mul ?_ a0 (by positivity) (by positivity)
  rw [le_div_iff₀ (by linarith)]
  linarith

/-- C183: and `Stereographic.geo2rect` puts that position, which is to the east of the centre, to the west of it. -/
theorem C183_mirrored_violated (m : Libm) (hm : m.Rounds) (r : ℚ) (hr : 1 ≤ r) :
    ∃ x y X Y, stereographic m (Equidistant.init m 0 8 r) (180 - 2 ^ (-22 : ℤ)) (-8) = .ok (x, y) ∧
      Proj.Stereographic.geo2rect (Proj.Sphere.new (some ((0 : ℝ), (8 : ℝ))) (some (r : ℝ))) (180 - 2 ^ (-22 : ℤ)) (-8) = .ok (X, Y) ∧ x < 0 ∧ 0 < X := by
  have hp := Real.pi_pos
  have c2 : m.cos (radians (-8)) = 4459770905381437 / 4503599627370496 := by
    rw [eight.2.1]
    exact cos_eq hm _ _ (1 / 10 ^ 22) 8 (by decide +kernel) (by decide +kernel) (by decide +kernel) (by decide +kernel)
  have s2 := sine_small hm
  have e : fl (2 / -(2 ^ (-53 : ℤ))) = -(2 ^ (54 : ℤ)) := by decide +kernel
  have d30 : IsDouble (2 ^ (-30 : ℤ)) := double_pow (by norm_num)
  have p1 : 2 ^ (-30 : ℤ) ≤ fl (m.cos (radians (-8)) * m.sin (fl (radians (180 - 2 ^ (-22 : ℤ)) - 0))) := by
    refine le_fl d30 ?_
    rw [c2]
    have : (2 : ℚ) ^ (-30 : ℤ) = 1 / 2 * 2 ^ (-29 : ℤ) := by norm_num
    rw [this]
    exact mul_le_mul (by norm_num) s2 (by positivity) (by norm_num)
  have k1 : fl (r * -(2 ^ (54 : ℤ))) ≤ -1 := by
    refine fl_le (double_neg double_one) ?_
    have : (1 : ℚ) ≤ 2 ^ (54 : ℤ) := by norm_num
    nlinarith
  have b := nearly_rad
  have sp : 0 < Real.sin (rad (180 - 2 ^ (-22 : ℤ))) := Real.sin_pos_of_pos_of_lt_pi b.1 b.2
  have cp : 0 < Real.cos (rad 8) := by
    apply Real.cos_pos_of_mem_Ioo
    rw [rad]
    constructor <;> linarith
  have r8 : rad (-8) = -rad 8 := by simp only [rad]; ring
  have r0 : rad 0 = 0 := by simp [rad]
  have ct : -1 < Real.cos (rad (180 - 2 ^ (-22 : ℤ))) := by
    have := Real.strictAntiOn_cos (a := rad (180 - 2 ^ (-22 : ℤ))) (b := Real.pi) ⟨b.1.le, b.2.le⟩ ⟨hp.le, le_rfl⟩ b.2
    rwa [Real.cos_pi] at this
  have hN : 0 < 1 + Proj.cosDist (Proj.Sphere.new (some ((0 : ℝ), (8 : ℝ))) (some (r : ℝ))) (180 - 2 ^ (-22 : ℤ)) (-8) := by
    rw [Proj.cosDist]
    change 0 < 1 + (Real.sin (rad 8) * Real.sin (rad (-8)) + Real.cos (rad 8) * Real.cos (rad (-8)) * Real.cos (rad (180 - 2 ^ (-22 : ℤ)) - rad 0))
    rw [r8, r0, sub_zero, Real.sin_neg, Real.cos_neg]
    have := Real.sin_sq_add_cos_sq (rad 8)
    have := mul_pos cp cp
    nlinarith
  have hr' : (0 : ℝ) < r := by
    have : (1 : ℝ) ≤ r := by exact_mod_cast hr
    linarith
  refine ⟨((Equidistant.init m 0 8 r).plane m (-(2 ^ (54 : ℤ))) (radians (180 - 2 ^ (-22 : ℤ))) (radians (-8))).1,
    ((Equidistant.init m 0 8 r).plane m (-(2 ^ (54 : ℤ))) (radians (180 - 2 ^ (-22 : ℤ))) (radians (-8))).2,
    (Proj.plane (Proj.Sphere.new (some ((0 : ℝ), (8 : ℝ))) (some (r : ℝ)))
      (2 / (1 + Proj.cosDist (Proj.Sphere.new (some ((0 : ℝ), (8 : ℝ))) (some (r : ℝ))) (180 - 2 ^ (-22 : ℤ)) (-8))) (180 - 2 ^ (-22 : ℤ)) (-8)).1,
    (Proj.plane (Proj.Sphere.new (some ((0 : ℝ), (8 : ℝ))) (some (r : ℝ)))
      (2 / (1 + Proj.cosDist (Proj.Sphere.new (some ((0 : ℝ), (8 : ℝ))) (some (r : ℝ))) (180 - 2 ^ (-22 : ℤ)) (-8))) (180 - 2 ^ (-22 : ℤ)) (-8)).2, ?_, ?_, ?_, ?_⟩
  · rw [stereographic, denom_eight hm, div, if_neg (by norm_num), e]
    rfl
  · rw [Proj.Stereographic.geo2rect, rdiv, if_neg hN.ne']
    rfl
  · simp only [Equidistant.plane, Equidistant.init, radians_zero]
    refine lt_of_le_of_lt (fl_le (double_neg d30) ?_) (by norm_num : -(2 : ℚ) ^ (-30 : ℤ) < 0)
    generalize fl (r * -(2 ^ (54 : ℤ))) = u at *
    generalize fl (m.cos (radians (-8)) * m.sin (fl (radians (180 - 2 ^ (-22 : ℤ)) - 0))) = v at *
    have : (0 : ℚ) < 2 ^ (-30 : ℤ) := by positivity
    generalize (2 : ℚ) ^ (-30 : ℤ) = q at *
    nlinarith
  · change 0 < (r : ℝ) * (2 / (1 + Proj.cosDist (Proj.Sphere.new (some ((0 : ℝ), (8 : ℝ))) (some (r : ℝ))) (180 - 2 ^ (-22 : ℤ)) (-8))) *
      (Real.cos (rad (-8)) * Real.sin (rad (180 - 2 ^ (-22 : ℤ)) - rad 0))
    rw [r8, r0, sub_zero, Real.cos_neg]
    exact mul_pos (mul_pos hr' (div_pos two_pos hN)) (mul_pos cp sp)

/-- The hypotheses can be met: with `h = 1` the positions in the hemisphere around the centre are meant. -/
example : ∃ m : Libm, m.Rounds ∧ |(40 : ℚ)| ≤ 90 ∧ |(-20 : ℚ)| ≤ 360 ∧ (2 : ℝ) ^ (-20 : ℤ) ≤ 1 ∧ (1 : ℝ) ≤ 1 + Real.cos (arc (-20 : ℚ) (40 : ℚ) (-20 : ℚ) (40 : ℚ)) := by
  obtain ⟨m, hm⟩ := exists_rounds
  refine ⟨m, hm, by norm_num, by norm_num, by norm_num, ?_⟩
  rw [Sph.cos_arc, Sph.dot, sub_self, Real.cos_zero, mul_one]
  have := mul_self_nonneg (Real.cos (rad (40 : ℚ)))
  have := mul_self_nonneg (Real.sin (rad (40 : ℚ)))
  linarith

end Flt
end Coral
