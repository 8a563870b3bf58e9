import Verif.Props.FloatsT
import Verif.Proofs.Azimuthal

/-!
# The azimuthal equidistant projection on floats (C173)
-/
namespace Coral
namespace Flt

open Spec (arc)
open Sph (arc_nonneg arc_le_pi)

/-- The difference of two longitudes. -/
theorem lon_err {lon0 lon : ℚ} (l0 : |(lon0 : ℝ)| ≤ 360) (l1 : |(lon : ℝ)| ≤ 360) :
    |(fl (radians lon - radians lon0) : ℝ) - (rad lon - rad lon0)| ≤ 26 * w := by
  have hw := w_pos
  have hle := w_le
  have r0 := radians_err (x := lon0) (by linarith)
  have r1 := radians_err (x := lon) (by linarith)
  have b0 := rad_abs l0
  have b1 := rad_abs l1
  have e := fl_err_real (radians lon - radians lon0)
  push_cast at e
  have t : |(radians lon : ℝ) - radians lon0 - (rad lon - rad lon0)| ≤ 18 * w := by
    rw [show (radians lon : ℝ) - radians lon0 - (rad lon - rad lon0) = (radians lon - rad lon) - (radians lon0 - rad lon0) by ring]
    refine (abs_sub _ _).trans (by linarith)
  have u : |(radians lon : ℝ) - radians lon0| ≤ 15 := by
    have a1 := abs_sub_abs_le_abs_sub ((radians lon : ℝ) - radians lon0) (rad lon - rad lon0)
    have a2 := abs_sub (rad (lon : ℝ)) (rad lon0)
    linarith
  have u' := mul_le_mul_of_nonneg_right u (by linarith : (0 : ℝ) ≤ w / 2)
  have := abs_sub_le (fl (radians lon - radians lon0) : ℝ) (radians lon - radians lon0) (rad lon - rad lon0)
  linarith

/-- The cosine of the distance from the centre is off by less than 72 units. -/
theorem cosc_err {m : Libm} (hm : m.Rounds) {lon0 lat0 r lon lat : ℚ} (h0 : |lat0| ≤ 90) (h1 : |lat| ≤ 90) (l0 : |lon0| ≤ 360) (l1 : |lon| ≤ 360) :
    |((Equidistant.init m lon0 lat0 r).cosc m (radians lon) (radians lat) : ℝ) - Real.cos (arc lon lat lon0 lat0)| ≤ 72 * w := by
  have hw := w_pos
  have hle := w_le
  have h0' := abs_real h0
  have h1' := abs_real h1
  have l0' := abs_real l0
  have l1' := abs_real l1
  push_cast at h0' h1' l0' l1'
  obtain ⟨s0, s0'⟩ := sin_err hm (radians_err (x := lat0) (by linarith))
  obtain ⟨s1, s1'⟩ := sin_err hm (radians_err (x := lat) (by linarith))
  obtain ⟨c0, c0'⟩ := cos_err hm (radians_err (x := lat0) (by linarith))
  obtain ⟨c1, c1'⟩ := cos_err hm (radians_err (x := lat) (by linarith))
  have d := lon_err l0' l1'
  obtain ⟨k, k'⟩ := cos_err hm d
  obtain ⟨a, a'⟩ := mul_err s0' s1' (Real.abs_sin_le_one _) s0 s1
  obtain ⟨b, b'⟩ := mul_err c0' c1' (Real.abs_cos_le_one _) c0 c1
  have hA : |Real.cos (rad lat0) * Real.cos (rad lat)| ≤ 1 := by
    rw [abs_mul]
    exact mul_le_one₀ (Real.abs_cos_le_one _) (abs_nonneg _) (Real.abs_cos_le_one _)
  obtain ⟨c, c'⟩ := mul_err b' k' hA b k
  rw [Sph.cos_arc, Sph.dot]
  simp only [Equidistant.cosc, Equidistant.init]
  generalize fl (m.sin (radians lat0) * m.sin (radians lat)) = x at *
  generalize fl (fl (m.cos (radians lat0) * m.cos (radians lat)) * m.cos (fl (radians lon - radians lon0))) = y at *
  rw [show Real.cos (rad lat) * Real.cos (rad lat0) * Real.cos (rad lon - rad lon0) + Real.sin (rad lat) * Real.sin (rad lat0) =
    Real.sin (rad lat0) * Real.sin (rad lat) + Real.cos (rad lat0) * Real.cos (rad lat) * Real.cos (rad lon - rad lon0) by ring]
  generalize Real.sin (rad lat0) * Real.sin (rad lat) = X at *
  generalize Real.cos (rad lat0) * Real.cos (rad lat) * Real.cos (rad lon - rad lon0) = Y at *
  have e := fl_err_real (x + y)
  push_cast at e
  have f : |(x : ℝ) + y| ≤ 2 := (abs_add_le _ _).trans (by linarith)
  have f' := mul_le_mul_of_nonneg_right f (by linarith : (0 : ℝ) ≤ w / 2)
  have g1 := abs_sub_le (fl (x + y) : ℝ) ((x : ℝ) + y) (X + Y)
  have g2 : |(x : ℝ) + y - (X + Y)| ≤ |(x : ℝ) - X| + |(y : ℝ) - Y| := by
    rw [show (x : ℝ) + y - (X + Y) = (x - X) + (y - Y) by ring]
    exact abs_add_le _ _
  linarith

/-- Cosines of angles that are not close to a multiple of a half turn. -/
theorem cos_inside {θ : ℝ} (h0 : 2 ^ (-20 : ℤ) ≤ θ) (h1 : θ ≤ Real.pi - 2 ^ (-20 : ℤ)) : |Real.cos θ| ≤ 1 - 200 * w := by
  have hp := Real.pi_pos
  have hpi := Real.pi_lt_d2
  have hw := w_pos
  have half : ∀ t : ℝ, 2 ^ (-20 : ℤ) ≤ t → t ≤ Real.pi → Real.cos t ≤ 1 - 200 * w := by
    intro t t0 t1
    have hz : (0 : ℝ) < 2 ^ (-20 : ℤ) := by positivity
    have k := Real.mul_le_sin (x := t / 2) (by linarith) (by linarith)
    have k1 : (2 : ℝ) ^ (-22 : ℤ) ≤ 2 / Real.pi * (t / 2) := by
      rw [show 2 / Real.pi * (t / 2) = t / Real.pi by ring, le_div_iff₀ hp]
      have e : (2 : ℝ) ^ (-20 : ℤ) = 4 * 2 ^ (-22 : ℤ) := by norm_num
      have e2 : (0 : ℝ) < 2 ^ (-22 : ℤ) := by positivity
      rw [e] at t0
      generalize (2 : ℝ) ^ (-22 : ℤ) = z at *
      nlinarith
    have k2 : ((2 : ℝ) ^ (-22 : ℤ)) ^ 2 ≤ Real.sin (t / 2) ^ 2 := pow_le_pow_left₀ (by positivity) (k1.trans k) 2
    have k3 : ((2 : ℝ) ^ (-22 : ℤ)) ^ 2 = 256 * w := by unfold w; norm_num
    rw [k3] at k2
    have k4 : Real.cos t = 1 - 2 * Real.sin (t / 2) ^ 2 := by
      have := Real.cos_two_mul (t / 2)
      rw [show 2 * (t / 2) = t by ring] at this
      have := Real.sin_sq_add_cos_sq (t / 2)
      linarith
    linarith
  have hz : (0 : ℝ) < 2 ^ (-20 : ℤ) := by positivity
  have a := half θ h0 (by linarith)
  have b := half (Real.pi - θ) (by linarith) (by linarith)
  rw [Real.cos_pi_sub] at b
  exact abs_le.mpr ⟨by linarith, a⟩

theorem acos_ok {m : Libm} {x : ℚ} (h0 : -1 ≤ x) (h1 : x ≤ 1) : m.pyAcos x = .ok (m.acos x) := by
  rw [Libm.pyAcos, if_neg (by push Not; exact ⟨h0, h1⟩)]

/-- The sine of a rounded arc cosine is positive. -/
theorem sin_acos_pos {m : Libm} (hm : m.Rounds) {x : ℚ} (h : |(x : ℝ)| ≤ 1 - 100 * w) : 0 < m.sin (m.acos x) := by
  have hw := w_pos
  have hle := w_le
  obtain ⟨h0, h1⟩ := abs_le.mp h
  have x0 : -1 ≤ x := by
    have : (-1 : ℝ) ≤ x := by linarith
    exact_mod_cast this
  have x1 : x ≤ 1 := by
    have : (x : ℝ) ≤ 1 := by linarith
    exact_mod_cast this
  have e := near_err (hm.acos x x0 x1)
  have p0 := Real.arccos_nonneg (x : ℝ)
  have p1 := Real.arccos_le_pi (x : ℝ)
  have hpi := Real.pi_lt_d2
  rw [abs_of_nonneg p0] at e
  have e1 : |(m.acos x : ℝ) - Real.arccos x| ≤ 2 * w := by nlinarith
  obtain ⟨s, -⟩ := sin_err hm e1
  rw [Real.sin_arccos] at s
  have r : 4 * w ≤ √(1 - (x : ℝ) ^ 2) := by
    apply Real.le_sqrt_of_sq_le
    have : (x : ℝ) ^ 2 ≤ (1 - 100 * w) ^ 2 := by
      rw [← sq_abs]
      exact pow_le_pow_left₀ (abs_nonneg _) h 2
    nlinarith
  have := (abs_le.mp s).1
  have : (0 : ℝ) < m.sin (m.acos x) := by linarith
  exact_mod_cast this

theorem geo2rect_ok {m : Libm} {lon0 lat0 r lon lat : ℚ} (hne : ¬ (radians lon = radians lon0 ∧ radians lat = radians lat0))
    (x0 : -1 ≤ (Equidistant.init m lon0 lat0 r).cosc m (radians lon) (radians lat)) (x1 : (Equidistant.init m lon0 lat0 r).cosc m (radians lon) (radians lat) ≤ 1)
    (hs : m.sin (m.acos ((Equidistant.init m lon0 lat0 r).cosc m (radians lon) (radians lat))) ≠ 0) :
    (Equidistant.init m lon0 lat0 r).geo2rect m lon lat =
      .ok (fl (fl (r * fl (m.acos ((Equidistant.init m lon0 lat0 r).cosc m (radians lon) (radians lat)) /
          m.sin (m.acos ((Equidistant.init m lon0 lat0 r).cosc m (radians lon) (radians lat))))) *
            fl (m.cos (radians lat) * m.sin (fl (radians lon - radians lon0)))),
        fl (fl (r * fl (m.acos ((Equidistant.init m lon0 lat0 r).cosc m (radians lon) (radians lat)) /
          m.sin (m.acos ((Equidistant.init m lon0 lat0 r).cosc m (radians lon) (radians lat))))) *
            fl (fl (m.cos (radians lat0) * m.sin (radians lat)) - fl (fl (m.sin (radians lat0) * m.cos (radians lat)) * m.cos (fl (radians lon - radians lon0)))))) := by
  rw [Equidistant.geo2rect, if_neg (fun k => hne ⟨k.1, k.2⟩)]
  simp only [acos_ok x0 x1, div]
  simp only [bind, Except.bind, if_neg hs]
  rfl

/-- Floats of the same place are close to each other. -/
theorem same_radians {lon0 lat0 lon lat : ℚ} (h0 : |(lat0 : ℝ)| ≤ 90) (h1 : |(lat : ℝ)| ≤ 90) (l0 : |(lon0 : ℝ)| ≤ 360) (l1 : |(lon : ℝ)| ≤ 360)
    (e1 : radians lon = radians lon0) (e2 : radians lat = radians lat0) : 1 - 100 * w < Real.cos (arc lon lat lon0 lat0) := by
  have hw := w_pos
  have hle := w_le
  have r0 := radians_err (x := lon0) (by linarith)
  have r1 := radians_err (x := lon) (by linarith)
  have q0 := radians_err (x := lat0) (by linarith)
  have q1 := radians_err (x := lat) (by linarith)
  rw [e1] at r1
  rw [e2] at q1
  have small : ∀ a b c : ℝ, |c - a| ≤ 9 * w → |c - b| ≤ 9 * w → Real.sin ((b - a) / 2) * Real.sin ((b - a) / 2) ≤ 9 * w := by
    intro a b c ha hb
    have k : |(b - a) / 2| ≤ 9 * w := by
      rw [abs_div, abs_two, show b - a = (c - a) - (c - b) by ring]
      have := abs_sub (c - a) (c - b)
      linarith
    have k2 := (Real.abs_sin_le_abs (x := (b - a) / 2)).trans k
    rw [← abs_mul_abs_self]
    have := mul_le_mul k2 (Real.abs_sin_le_one ((b - a) / 2)) (abs_nonneg _) (by linarith)
    linarith
  have s1 := small (rad lat) (rad lat0) _ q1 q0
  have s2 := small (rad lon) (rad lon0) _ r1 r0
  have hd := Sph.hav_dot lon lat lon0 lat0
  rw [← Sph.cos_arc, Sph.hav, rad_sub, rad_sub] at hd
  have t : Real.sin ((rad (lon0 : ℝ) - rad lon) / 2) * Real.sin ((rad (lon0 : ℝ) - rad lon) / 2) * Real.cos (rad lat) * Real.cos (rad lat0) ≤ 9 * w := by
    rw [mul_assoc]
    refine le_trans ?_ s2
    refine mul_le_of_le_one_right (mul_self_nonneg _) ?_
    refine (le_abs_self _).trans ?_
    rw [abs_mul]
    exact mul_le_one₀ (Real.abs_cos_le_one _) (abs_nonneg _) (Real.abs_cos_le_one _)
  linarith

/-- C173: `AzimuthalEquidistant.geo2rect` on floats returns a point of the plane for every position that is neither within some metres of the
centre nor within some metres of its antipode. Missing: the positions near the centre, see `C173_near_centre_violated`. -/
theorem C173_returns_partial (m : Libm) (hm : m.Rounds) (lon0 lat0 r lon lat : ℚ) (h0 : |lat0| ≤ 90) (h1 : |lat| ≤ 90) (l0 : |lon0| ≤ 360)
    (l1 : |lon| ≤ 360) (a0 : 2 ^ (-20 : ℤ) ≤ arc lon lat lon0 lat0) (a1 : arc lon lat lon0 lat0 ≤ Real.pi - 2 ^ (-20 : ℤ)) :
    ∃ p, (Equidistant.init m lon0 lat0 r).geo2rect m lon lat = .ok p := by
  have hw := w_pos
  have e := cosc_err hm (r := r) h0 h1 l0 l1
  have i := cos_inside a0 a1
  have b : |((Equidistant.init m lon0 lat0 r).cosc m (radians lon) (radians lat) : ℝ)| ≤ 1 - 100 * w := by
    have := abs_sub_abs_le_abs_sub ((Equidistant.init m lon0 lat0 r).cosc m (radians lon) (radians lat) : ℝ) (Real.cos (arc lon lat lon0 lat0))
    linarith
  obtain ⟨b0, b1⟩ := abs_le.mp b
  have x0 : -1 ≤ (Equidistant.init m lon0 lat0 r).cosc m (radians lon) (radians lat) := by
    have : (-1 : ℝ) ≤ (Equidistant.init m lon0 lat0 r).cosc m (radians lon) (radians lat) := by linarith
    exact_mod_cast this
  have x1 : (Equidistant.init m lon0 lat0 r).cosc m (radians lon) (radians lat) ≤ 1 := by
    have : ((Equidistant.init m lon0 lat0 r).cosc m (radians lon) (radians lat) : ℝ) ≤ 1 := by linarith
    exact_mod_cast this
  have s := sin_acos_pos hm b
  by_cases hne : radians lon = radians lon0 ∧ radians lat = radians lat0
  · exact ⟨_, if_pos hne⟩
  · exact ⟨_, geo2rect_ok hne x0 x1 s.ne'⟩

/-! ### How close the point is -/

/-- The unit of the errors of distances, `2⁻²⁶`. -/
noncomputable def z : ℝ := 2 ^ (-26 : ℤ)

theorem z_pos : 0 < z := by unfold z; positivity
theorem z_le : z ≤ 1 / 60000000 := by unfold z; norm_num
theorem z_sq : z ^ 2 = w := by unfold z w; norm_num
theorem w_le_z : w ≤ z / 60000000 := by
  have := z_pos
  have := z_le
  rw [← z_sq]
  nlinarith

/-- The angle is off by less than 20 of these units. -/
theorem acos_err {m : Libm} (hm : m.Rounds) {q : ℚ} {θ : ℝ} (h0 : 0 ≤ θ) (h1 : θ ≤ Real.pi) (q0 : -1 ≤ q) (q1 : q ≤ 1) (h : |(q : ℝ) - Real.cos θ| ≤ 72 * w) :
    |(m.acos q : ℝ) - θ| ≤ 20 * z := by
  have hp := Real.pi_pos
  have hpi := Real.pi_lt_d2
  have hz := z_pos
  have hwz := w_le_z
  have hw := w_pos
  have p0 := Real.arccos_nonneg (q : ℝ)
  have p1 := Real.arccos_le_pi (q : ℝ)
  have q0' : (-1 : ℝ) ≤ q := by exact_mod_cast q0
  have q1' : (q : ℝ) ≤ 1 := by exact_mod_cast q1
  have k := angle_close (by linarith : 0 ≤ Real.arccos (q : ℝ) / 2) (by linarith) (by linarith : 0 ≤ θ / 2) (by linarith)
  have hs : ∀ x : ℝ, Real.sin (x / 2) ^ 2 = (1 - Real.cos x) / 2 := by
    intro x
    have h1 := Real.cos_sq (x / 2)
    have h2 := Real.sin_sq_add_cos_sq (x / 2)
    rw [show 2 * (x / 2) = x by ring] at h1
    linarith
  rw [hs, hs, Real.cos_arccos q0' q1', ← sub_div, ← sub_div] at k
  have e1 : |((1 : ℝ) - q - (1 - Real.cos θ)) / 2| ≤ 36 * w := by
    rw [show (1 : ℝ) - q - (1 - Real.cos θ) = -(q - Real.cos θ) by ring, abs_div, abs_neg, abs_two]
    linarith
  have k2 : (2 / Real.pi * |(Real.arccos (q : ℝ) - θ) / 2|) ^ 2 ≤ (6 * z) ^ 2 := by
    rw [mul_pow 6 z, z_sq]
    linarith
  have k3 := (abs_le_of_sq_le_sq' k2 (by positivity)).2
  have k4 : |Real.arccos (q : ℝ) - θ| = Real.pi * (2 / Real.pi * |(Real.arccos (q : ℝ) - θ) / 2|) := by
    rw [abs_div, abs_two]
    field_simp
  have k5 : |Real.arccos (q : ℝ) - θ| ≤ 19 * z := by
    rw [k4]
    have := mul_le_mul_of_nonneg_left k3 hp.le
    nlinarith
  have e := near_err (hm.acos q q0 q1)
  rw [abs_of_nonneg p0] at e
  have e2 : |(m.acos q : ℝ) - Real.arccos q| ≤ 2 * w := by nlinarith
  have := abs_sub_le (m.acos q : ℝ) (Real.arccos q) θ
  linarith

/-- The factor `c / sin c`. -/
theorem factor_err {m : Libm} (hm : m.Rounds) {c : ℚ} {θ : ℝ} (h0 : 64 * z ≤ θ) (h1 : θ ≤ Real.pi / 2) (h : |(c : ℝ) - θ| ≤ 20 * z) :
    40 * z ≤ Real.sin θ ∧ θ / Real.sin θ ≤ 16 / 10 ∧ m.sin c ≠ 0 ∧ |(fl (c / m.sin c) : ℝ) - θ / Real.sin θ| ≤ 113 * z / Real.sin θ := by
  have hp := Real.pi_pos
  have hpi := Real.pi_lt_d2
  have hz := z_pos
  have hz1 := z_le
  have hwz := w_le_z
  have hw := w_pos
  have k := Real.mul_le_sin (x := θ) (by linarith) h1
  have kk : θ ≤ 158 / 100 * Real.sin θ := by
    have : 2 / Real.pi * θ = 2 * θ / Real.pi := by ring
    rw [this, div_le_iff₀ hp] at k
    have := Real.sin_le_one θ
    have : 0 ≤ Real.sin θ := Real.sin_nonneg_of_nonneg_of_le_pi (by linarith) (by linarith)
    nlinarith
  have S1 := Real.sin_le_one θ
  obtain ⟨s, -⟩ := sin_err hm h
  generalize Real.sin θ = S at *
  have S0 : 40 * z ≤ S := by linarith
  have Sp : 0 < S := by linarith
  obtain ⟨s1, s2⟩ := abs_le.mp s
  obtain ⟨c1, c2⟩ := abs_le.mp h
  generalize m.sin c = t at *
  have t0 : 47 / 100 * S ≤ (t : ℝ) := by linarith
  have tp : (0 : ℝ) < t := by linarith
  have tne : t ≠ 0 := by
    intro h
    rw [h] at tp
    simp at tp
  have c0 : (0 : ℝ) ≤ c := by linarith
  refine ⟨S0, by rw [div_le_iff₀ Sp]; linarith, tne, ?_⟩
  have e1 : |(c : ℝ) / t - θ / S| ≤ 112 * z / S := by
    rw [div_sub_div _ _ tp.ne' Sp.ne', abs_div, abs_of_pos (mul_pos tp Sp), div_le_div_iff₀ (mul_pos tp Sp) Sp]
    have n : |(c : ℝ) * S - t * θ| ≤ 523 / 10 * z * S := by
      rw [show (c : ℝ) * S - t * θ = (c - θ) * S + θ * (S - t) by ring]
      refine (abs_add_le _ _).trans ?_
      rw [abs_mul, abs_mul, abs_of_pos Sp, abs_of_nonneg (by linarith : 0 ≤ θ), abs_sub_comm S]
      have a1 := mul_le_mul_of_nonneg_right h Sp.le
      have s' : |(t : ℝ) - S| ≤ 201 / 10 * z := by linarith
      have a2 := mul_le_mul kk s' (abs_nonneg _) (by linarith)
      nlinarith
    have n2 : 523 / 10 * z * S ≤ 112 * z * t := by nlinarith
    have n3 := mul_le_mul_of_nonneg_right (n.trans n2) Sp.le
    linarith
  have e2 := fl_err_real (c / t)
  push_cast at e2
  have b : (c : ℝ) / t ≤ 5 := by
    rw [div_le_iff₀ tp]
    linarith
  rw [abs_of_nonneg (div_nonneg c0 tp.le)] at e2
  have e3 : |(fl (c / t) : ℝ) - c / t| ≤ z := by nlinarith
  have e4 := abs_sub_le (fl (c / t) : ℝ) (c / t) (θ / S)
  have e5 : z ≤ z / S := by rw [le_div_iff₀ Sp]; nlinarith
  have e6 : 113 * z / S = 112 * z / S + z / S := by ring
  rw [e6]
  linarith

/-- A coordinate of the plane. -/
theorem coordinate_err {r k p : ℚ} {K S P : ℝ} (hr : 1 ≤ r) (h0 : 40 * z ≤ S) (S1 : S ≤ 1) (K0 : 0 ≤ K) (K1 : K ≤ 16 / 10)
    (hk : |(k : ℝ) - K| ≤ 113 * z / S) (hP : |P| ≤ S) (hp : |(p : ℝ) - P| ≤ 72 * w) : |(fl (fl (r * k) * p) : ℝ) - r * K * P| ≤ r * 2 ^ (-19 : ℤ) := by
  have hz := z_pos
  have hz1 := z_le
  have hwz := w_le_z
  have hw := w_pos
  have hr' : (1 : ℝ) ≤ r := by exact_mod_cast hr
  have Sp : 0 < S := by linarith
  have kS : 113 * z / S ≤ 3 := by rw [div_le_iff₀ Sp]; linarith
  have k5 : |(k : ℝ)| ≤ 5 := by
    have := abs_sub_abs_le_abs_sub (k : ℝ) K
    rw [abs_of_nonneg K0] at this
    linarith
  have e1 := fl_err_real (r * k)
  push_cast at e1
  rw [abs_mul, abs_of_nonneg (by linarith : (0 : ℝ) ≤ r)] at e1
  have zS : z ≤ z / S := by rw [le_div_iff₀ Sp]; nlinarith
  have e2 : |(fl (r * k) : ℝ) - r * k| ≤ r * z := by
    have a := mul_le_mul_of_nonneg_left k5 (by linarith : (0 : ℝ) ≤ r)
    have b := mul_le_mul_of_nonneg_right a (by linarith : 0 ≤ w / 2)
    have c : (r : ℝ) * 5 * (w / 2) ≤ r * (z / 1000) := by
      rw [mul_assoc]
      exact mul_le_mul_of_nonneg_left (by linarith) (by linarith)
    have d : z ≤ (r : ℝ) * z := le_mul_of_one_le_left hz.le hr'
    linarith
  have e3 : |(fl (r * k) : ℝ) - r * K| ≤ r * (114 * z / S) := by
    have a := abs_sub_le (fl (r * k) : ℝ) (r * k) (r * K)
    have b : |(r : ℝ) * k - r * K| ≤ r * (113 * z / S) := by
      rw [← mul_sub, abs_mul, abs_of_nonneg (by linarith : (0 : ℝ) ≤ r)]
      exact mul_le_mul_of_nonneg_left hk (by linarith)
    have c : (r : ℝ) * z ≤ r * (z / S) := mul_le_mul_of_nonneg_left zS (by linarith)
    have d : (r : ℝ) * (114 * z / S) = r * (113 * z / S) + r * (z / S) := by ring
    rw [d]
    linarith
  have p1 : |(p : ℝ)| ≤ 1001 / 1000 * S := by
    have := abs_sub_abs_le_abs_sub (p : ℝ) P
    linarith
  generalize fl (r * k) = v at *
  have e4 : |(v : ℝ) * p - r * K * P| ≤ r * (116 * z) := by
    rw [show (v : ℝ) * p - r * K * P = (v - r * K) * p + r * K * (p - P) by ring]
    refine (abs_add_le _ _).trans ?_
    rw [abs_mul, abs_mul, abs_of_nonneg (mul_nonneg (by linarith : (0 : ℝ) ≤ r) K0)]
    have a := mul_le_mul e3 p1 (abs_nonneg _) (mul_nonneg (by linarith) (div_nonneg (by linarith) Sp.le))
    have a' : (r : ℝ) * (114 * z / S) * (1001 / 1000 * S) = r * (114 * z * (1001 / 1000)) := by field_simp
    rw [a'] at a
    have b := mul_le_mul_of_nonneg_left hp (mul_nonneg (by linarith : (0 : ℝ) ≤ r) K0)
    have b' : (r : ℝ) * K * (72 * w) ≤ r * z := by
      rw [mul_assoc]
      exact mul_le_mul_of_nonneg_left (by nlinarith) (by linarith)
    have c : (r : ℝ) * (114 * z * (1001 / 1000)) + r * z ≤ r * (116 * z) := by
      rw [← mul_add]
      exact mul_le_mul_of_nonneg_left (by linarith) (by linarith)
    linarith
  have e5 := fl_err_real (v * p)
  push_cast at e5
  have vp : |(v : ℝ) * p| ≤ r * 3 := by
    have a := abs_sub_abs_le_abs_sub ((v : ℝ) * p) (r * K * P)
    have b : |(r : ℝ) * K * P| ≤ r * 2 := by
      rw [mul_assoc, abs_mul, abs_of_nonneg (by linarith : (0 : ℝ) ≤ r), abs_mul, abs_of_nonneg K0]
      refine mul_le_mul_of_nonneg_left ?_ (by linarith)
      have := mul_le_mul K1 (hP.trans S1) (abs_nonneg _) (by norm_num)
      linarith
    have c : (r : ℝ) * (116 * z) ≤ r * 1 := mul_le_mul_of_nonneg_left (by linarith) (by linarith)
    linarith
  have e6 : |(fl (v * p) : ℝ) - v * p| ≤ r * z := by
    have b := mul_le_mul_of_nonneg_right vp (by linarith : 0 ≤ w / 2)
    have c : (r : ℝ) * 3 * (w / 2) ≤ r * (z / 1000) := by
      rw [mul_assoc]
      exact mul_le_mul_of_nonneg_left (by linarith) (by linarith)
    have d : z ≤ (r : ℝ) * z := le_mul_of_one_le_left hz.le hr'
    linarith
  have e7 := abs_sub_le (fl (v * p) : ℝ) (v * p) (r * K * P)
  have e8 : (r : ℝ) * z + r * (116 * z) ≤ r * 2 ^ (-19 : ℤ) := by
    rw [← mul_add]
    refine mul_le_mul_of_nonneg_left ?_ (by linarith)
    rw [show (2 : ℝ) ^ (-19 : ℤ) = 128 * z by unfold z; norm_num]
    linarith
  linarith

/-- C173: in the hemisphere around the centre, but for the positions within some metres of it, `AzimuthalEquidistant.geo2rect` on floats is off
by at most some metres on Earth. Missing: the other hemisphere, for which see `C173_returns_partial`. -/
theorem C173_close_partial (m : Libm) (hm : m.Rounds) (lon0 lat0 r lon lat : ℚ) (h0 : |lat0| ≤ 90) (h1 : |lat| ≤ 90) (l0 : |lon0| ≤ 360)
    (l1 : |lon| ≤ 360) (hr : 1 ≤ r) (a0 : 2 ^ (-20 : ℤ) ≤ arc lon lat lon0 lat0) (a1 : arc lon lat lon0 lat0 ≤ Real.pi / 2) :
    ∃ x y X Y, (Equidistant.init m lon0 lat0 r).geo2rect m lon lat = .ok (x, y) ∧
      Proj.AzimuthalEquidistant.geo2rect (Proj.Sphere.new (some ((lon0 : ℝ), (lat0 : ℝ))) (some (r : ℝ))) lon lat = .ok (X, Y) ∧
      |(x : ℝ) - X| ≤ r * 2 ^ (-19 : ℤ) ∧ |(y : ℝ) - Y| ≤ r * 2 ^ (-19 : ℤ) := by
  have hw := w_pos
  have hle := w_le
  have hz := z_pos
  have hp := Real.pi_gt_three
  have a0' : 64 * z ≤ arc lon lat lon0 lat0 := by
    rw [show (2 : ℝ) ^ (-20 : ℤ) = 64 * z by unfold z; norm_num] at a0
    exact a0
  have e := cosc_err hm (r := r) h0 h1 l0 l1
  have a2 : arc (lon : ℝ) lat lon0 lat0 ≤ Real.pi - 2 ^ (-20 : ℤ) := by
    have : (2 : ℝ) ^ (-20 : ℤ) ≤ 1 := by norm_num
    linarith
  have i := cos_inside a0 a2
  have b : |((Equidistant.init m lon0 lat0 r).cosc m (radians lon) (radians lat) : ℝ)| ≤ 1 - 100 * w := by
    have := abs_sub_abs_le_abs_sub ((Equidistant.init m lon0 lat0 r).cosc m (radians lon) (radians lat) : ℝ) (Real.cos (arc lon lat lon0 lat0))
    linarith
  obtain ⟨b0, b1⟩ := abs_le.mp b
  have x0 : -1 ≤ (Equidistant.init m lon0 lat0 r).cosc m (radians lon) (radians lat) := by
    have : (-1 : ℝ) ≤ (Equidistant.init m lon0 lat0 r).cosc m (radians lon) (radians lat) := by linarith
    exact_mod_cast this
  have x1 : (Equidistant.init m lon0 lat0 r).cosc m (radians lon) (radians lat) ≤ 1 := by
    have : ((Equidistant.init m lon0 lat0 r).cosc m (radians lon) (radians lat) : ℝ) ≤ 1 := by linarith
    exact_mod_cast this
  have ce := acos_err hm (arc_nonneg _ _ _ _) (arc_le_pi _ _ _ _) x0 x1 e
  obtain ⟨S0, K1, sne, ke⟩ := factor_err hm a0' a1 ce
  have h0' := abs_real h0
  have h1' := abs_real h1
  have l0' := abs_real l0
  have l1' := abs_real l1
  push_cast at h0' h1' l0' l1'
  obtain ⟨s0, s0'⟩ := sin_err hm (radians_err (x := lat0) (by linarith))
  obtain ⟨s1, s1'⟩ := sin_err hm (radians_err (x := lat) (by linarith))
  obtain ⟨c0, c0'⟩ := cos_err hm (radians_err (x := lat0) (by linarith))
  obtain ⟨c1, c1'⟩ := cos_err hm (radians_err (x := lat) (by linarith))
  have d := lon_err l0' l1'
  obtain ⟨k, k'⟩ := cos_err hm d
  obtain ⟨t, t'⟩ := sin_err hm d
  obtain ⟨E, E'⟩ := mul_err c1' t' (Real.abs_cos_le_one _) c1 t
  obtain ⟨F, F'⟩ := mul_err c0' s1' (Real.abs_cos_le_one _) c0 s1
  obtain ⟨G, G'⟩ := mul_err s0' c1' (Real.abs_sin_le_one _) s0 c1
  have hA : |Real.sin (rad lat0) * Real.cos (rad lat)| ≤ 1 := by
    rw [abs_mul]
    exact mul_le_one₀ (Real.abs_sin_le_one _) (abs_nonneg _) (Real.abs_cos_le_one _)
  obtain ⟨H, H'⟩ := mul_err G' k' hA G k
  have ha : Proj.away (Proj.Sphere.new (some ((lon0 : ℝ), (lat0 : ℝ))) (some (r : ℝ))) lon lat = arc lon lat lon0 lat0 := by
    rw [Proj.away_arc, Sph.arc_comm]
  have Sp : 0 < Real.sin (arc lon lat lon0 lat0) := by linarith
  have hsq := Proj.sin_away_sq (Proj.Sphere.new (some ((lon0 : ℝ), (lat0 : ℝ))) (some (r : ℝ))) lon lat
  have fw := Proj.AzimuthalEquidistant.fwd (Proj.Sphere.new (some ((lon0 : ℝ), (lat0 : ℝ))) (some (r : ℝ))) lon lat (by rw [ha]; exact Sp)
  rw [ha] at fw hsq
  have hne : ¬ (radians lon = radians lon0 ∧ radians lat = radians lat0) := by
    rintro ⟨e1, e2⟩
    have := same_radians h0' h1' l0' l1' e1 e2
    have := (abs_le.mp i).2
    linarith
  refine ⟨_, _, _, _, geo2rect_ok hne x0 x1 sne, fw, ?_, ?_⟩
  · refine coordinate_err hr S0 (Real.sin_le_one _) (div_nonneg (arc_nonneg _ _ _ _) Sp.le) K1 ke (abs_le_of_sq_le_sq (by rw [hsq]; exact le_add_of_nonneg_right (sq_nonneg _)) Sp.le) ?_
    rw [Proj.east]
    refine E.trans ?_
    linarith
  · refine coordinate_err hr S0 (Real.sin_le_one _) (div_nonneg (arc_nonneg _ _ _ _) Sp.le) K1 ke (abs_le_of_sq_le_sq (by rw [hsq]; exact le_add_of_nonneg_left (sq_nonneg _)) Sp.le) ?_
    rw [Proj.north]
    change |_ - (Real.cos (rad lat0) * Real.sin (rad lat) - Real.sin (rad lat0) * Real.cos (rad lat) * Real.cos (rad lon - rad lon0))| ≤ _
    generalize fl (m.cos (radians lat0) * m.sin (radians lat)) = x at *
    generalize fl (fl (m.sin (radians lat0) * m.cos (radians lat)) * m.cos (fl (radians lon - radians lon0))) = y at *
    generalize Real.cos (rad lat0) * Real.sin (rad lat) = X at *
    generalize Real.sin (rad lat0) * Real.cos (rad lat) * Real.cos (rad lon - rad lon0) = Y at *
    have e := fl_err_real (x - y)
    push_cast at e
    have f : |(x : ℝ) - y| ≤ 2 := (abs_sub _ _).trans (by linarith)
    have f' := mul_le_mul_of_nonneg_right f (by linarith : (0 : ℝ) ≤ w / 2)
    have g1 := abs_sub_le (fl (x - y) : ℝ) ((x : ℝ) - y) (X - Y)
    have g2 : |(x : ℝ) - y - (X - Y)| ≤ |(x : ℝ) - X| + |(y : ℝ) - Y| := by
      rw [show (x : ℝ) - y - (X - Y) = (x - X) - (y - Y) by ring]
      exact abs_sub _ _
    linarith

/-- C173: the centre itself is put at the origin of the plane. -/
theorem C173_centre (m : Libm) (lon0 lat0 r : ℚ) : (Equidistant.init m lon0 lat0 r).geo2rect m lon0 lat0 = .ok (0, 0) := by
  rw [Equidistant.geo2rect, if_pos ⟨rfl, rfl⟩]

/-- The cosine of a small angle is rounded to 1. -/
theorem cos_small {m : Libm} (hm : m.Rounds) {x : ℚ} {k : ℤ} (h : |(x : ℝ) - k * (2 * Real.pi)| ≤ 2 ^ (-27 : ℤ)) : m.cos x = 1 := by
  have c : 1 - ((x : ℝ) - k * (2 * Real.pi)) ^ 2 / 2 ≤ Real.cos x := by
    have := Real.one_sub_sq_div_two_le_cos (x := (x : ℝ) - k * (2 * Real.pi))
    rwa [Real.cos_sub_int_mul_two_pi] at this
  have s : ((x : ℝ) - k * (2 * Real.pi)) ^ 2 ≤ (2 ^ (-27 : ℤ)) ^ 2 := by
    rw [← sq_abs]
    exact pow_le_pow_left₀ (abs_nonneg _) h 2
  have s2 : ((2 : ℝ) ^ (-27 : ℤ)) ^ 2 = 1 / 2 ^ 54 := by norm_num
  rw [s2] at s
  refine near_eq (hm.cos x) (lo := 1 - 3 / 2 ^ 56) (hi := 1 + 3 / 2 ^ 56) ?_ ?_ (by decide +kernel) (by decide +kernel)
  · push_cast
    generalize ((x : ℝ) - k * (2 * Real.pi)) ^ 2 = t at *
    refine lt_of_lt_of_le ?_ c
    have : (3 : ℝ) / 2 ^ 56 = 3 / 4 * (1 / 2 ^ 54) := by norm_num
    rw [this]
    have : (0 : ℝ) < 1 / 2 ^ 54 := by positivity
    generalize (1 : ℝ) / 2 ^ 54 = z at *
    linarith
  · refine lt_of_le_of_lt (Real.cos_le_one _) ?_
    push_cast
    norm_num

/-- C173: with a centre on the equator, every other position on the equator that is less than about 5 centimetres from the centre on Earth makes
`geo2rect` raise `ZeroDivisionError`. -/
theorem C173_near_centre_violated (m : Libm) (hm : m.Rounds) (lon0 lon r : ℚ) (hne : radians lon ≠ radians lon0)
    (h : |radians lon - radians lon0| ≤ 2 ^ (-27 : ℤ)) : (Equidistant.init m lon0 0 r).geo2rect m lon 0 = .error .zeroDivisionError := by
  have d : IsDouble (2 ^ (-27 : ℤ)) := double_pow (by norm_num)
  have hd : |fl (radians lon - radians lon0)| ≤ 2 ^ (-27 : ℤ) := by
    obtain ⟨a, b⟩ := abs_le.mp h
    exact abs_le.mpr ⟨le_fl (double_neg d) a, fl_le d b⟩
  have c1 : m.cos (fl (radians lon - radians lon0)) = 1 := by
    refine cos_small hm (k := 0) ?_
    have := abs_real hd
    push_cast at this ⊢
    rwa [zero_mul, sub_zero]
  have hc : (Equidistant.init m lon0 0 r).cosc m (radians lon) (radians 0) = 1 := by
    simp only [Equidistant.cosc, Equidistant.init, radians_zero, sin_zero hm, cos_zero hm, c1, mul_zero, mul_one, zero_add, fl_zero, fl_one]
  have a1 : m.acos 1 = 0 := near_id (hm.acos 1 (by norm_num) le_rfl) double_zero (by simp)
  rw [Equidistant.geo2rect, if_neg (fun k => hne k.1), hc, acos_ok (by norm_num) le_rfl, a1]
  simp only [bind, Except.bind, sin_zero hm, div, if_true]

/-- C173: and at the latitude of 8 degrees such positions make `geo2rect` raise `ValueError`, and so does the other name of the centre on the
180th meridian. -/
theorem C173_value_error_violated (m : Libm) (hm : m.Rounds) (lon0 lon r : ℚ) (hne : radians lon ≠ radians lon0)
    (h : |radians lon - radians lon0| ≤ 2 ^ (-27 : ℤ) ∨ lon0 = 180 ∧ lon = -180) : (Equidistant.init m lon0 8 r).geo2rect m lon 8 = .error .valueError := by
  have c1 : m.cos (fl (radians lon - radians lon0)) = 1 := by
    rcases h with h | ⟨rfl, rfl⟩
    · have d : IsDouble (2 ^ (-27 : ℤ)) := double_pow (by norm_num)
      have hd : |fl (radians lon - radians lon0)| ≤ 2 ^ (-27 : ℤ) := by
        obtain ⟨a, b⟩ := abs_le.mp h
        exact abs_le.mpr ⟨le_fl (double_neg d) a, fl_le d b⟩
      refine cos_small hm (k := 0) ?_
      have := abs_real hd
      push_cast at this ⊢
      rwa [zero_mul, sub_zero]
    · have e : fl (radians (-180) - radians 180) = -(2 * piD) := by decide +kernel
      rw [e]
      refine cos_small hm (k := -1) ?_
      have h1 := Real.pi_gt_d20
      have h2 := Real.pi_lt_d20
      rw [abs_le, piD]
      push_cast
      constructor <;> norm_num at h1 h2 ⊢ <;> linarith
  have e1 := eight.1
  have c8 : m.cos (5030569068109113 / 36028797018963968) = 4459770905381437 / 4503599627370496 :=
    cos_eq hm _ _ (1 / 10 ^ 22) 8 (by decide +kernel) (by decide +kernel) (by decide +kernel) (by decide +kernel)
  have s8 : m.sin (5030569068109113 / 36028797018963968) = 5014239404989977 / 36028797018963968 :=
    sin_eq hm _ _ (1 / 10 ^ 22) 8 (by decide +kernel) (by decide +kernel) (by decide +kernel) (by decide +kernel)
  have hc : (Equidistant.init m lon0 8 r).cosc m (radians lon) (radians 8) = 1 + 2 ^ (-52 : ℤ) := by
    simp only [Equidistant.cosc, Equidistant.init, e1, c8, s8, c1]
    decide +kernel
  have a1 : m.pyAcos (1 + 2 ^ (-52 : ℤ)) = .error .valueError := by
    rw [Libm.pyAcos, if_pos (Or.inr (by norm_num))]
  rw [Equidistant.geo2rect, if_neg (fun k => hne k.1), hc, a1]
  rfl

/-- The hypotheses of `C173_close_partial` and `C172_close_partial` can be met: a quarter of the equator. -/
theorem quarter : arc ((90 : ℚ) : ℝ) ((0 : ℚ) : ℝ) ((0 : ℚ) : ℝ) ((0 : ℚ) : ℝ) = Real.pi / 2 := by
  have h := Sph.cos_arc ((90 : ℚ) : ℝ) ((0 : ℚ) : ℝ) ((0 : ℚ) : ℝ) ((0 : ℚ) : ℝ)
  rw [Sph.dot] at h
  push_cast at h ⊢
  rw [show rad 0 = 0 by rw [rad]; ring, Real.cos_zero, Real.sin_zero, sub_zero, show rad 90 = Real.pi / 2 by rw [rad]; ring, Real.cos_pi_div_two] at h
  refine Real.injOn_cos ⟨arc_nonneg _ _ _ _, arc_le_pi _ _ _ _⟩ ⟨by positivity, by linarith [Real.pi_pos]⟩ ?_
  rw [h, Real.cos_pi_div_two]
  ring

example (m : Libm) (hm : m.Rounds) : ∃ x y X Y, (Equidistant.init m 0 0 6371000).geo2rect m 90 0 = .ok (x, y) ∧
    Proj.AzimuthalEquidistant.geo2rect (Proj.Sphere.new (some (((0 : ℚ) : ℝ), ((0 : ℚ) : ℝ))) (some ((6371000 : ℚ) : ℝ))) ((90 : ℚ) : ℝ) ((0 : ℚ) : ℝ) = .ok (X, Y) ∧
    |(x : ℝ) - X| ≤ (6371000 : ℚ) * 2 ^ (-19 : ℤ) ∧ |(y : ℝ) - Y| ≤ (6371000 : ℚ) * 2 ^ (-19 : ℤ) := by
  have hp := Real.pi_gt_three
  refine C173_close_partial m hm 0 0 6371000 90 0 (by norm_num) (by norm_num) (by norm_num) (by norm_num) (by norm_num) ?_ ?_
  · rw [quarter]
    have : (2 : ℝ) ^ (-20 : ℤ) ≤ 1 := by norm_num
    linarith
  · rw [quarter]

example (m : Libm) (hm : m.Rounds) : ∃ d, haversine m 90 0 0 0 (some 6371000) = .ok d ∧ 0 ≤ d ∧
    |(d : ℝ) - (6371000 : ℚ) * arc ((90 : ℚ) : ℝ) ((0 : ℚ) : ℝ) ((0 : ℚ) : ℝ) ((0 : ℚ) : ℝ)| ≤ (6371000 : ℚ) * 2 ^ (-20 : ℤ) := by
  have hp := Real.pi_gt_three
  refine C172_close_partial m hm 90 0 0 0 6371000 (by norm_num) (by norm_num) (by norm_num) (by norm_num) ?_
  rw [quarter]
  have : (2 : ℝ) ^ (-20 : ℤ) ≤ 1 := by norm_num
  linarith

/-- The hypotheses can be met: a hundred millionth of a degree from Greenwich, and the two names of the 180th meridian. -/
example : radians (1 / 10 ^ 8) ≠ radians 0 ∧ |radians (1 / 10 ^ 8) - radians 0| ≤ 2 ^ (-27 : ℤ) := by decide +kernel

example : radians (-180) ≠ radians 180 := by decide +kernel

end Flt
end Coral
