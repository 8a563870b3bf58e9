import Verif.Proofs.Conformal
import Verif.Proofs.Azimuthal
import Verif.Proofs.Eckert
import Mathlib.Analysis.SpecialFunctions.Trigonometric.InverseDeriv

/-! # Local scales of the azimuthal projections -/
namespace Coral
namespace Proj

open Real Topology

/-- The derivatives of a plane point whose scale depends on the distance from the centre. -/
theorem plane_partials (p : Sphere) {g : ℝ → ℝ → Py (ℝ × ℝ)} {K : ℝ → ℝ} {K' lon lat : ℝ} (hK : HasDerivAt K K' (cosDist p lon lat))
    (hg : ∀ᶠ C in 𝓝 (cosDist p lon lat), ∀ l m, cosDist p l m = C → g l m = .ok (plane p (K C) l m)) :
    Spec.HasPartials g lon lat
      (p.r * ((K' * -(cos p.lat0 * cos (rad lat) * sin (rad lon - p.lon0)) * (cos (rad lat) * sin (rad lon - p.lon0)) +
        K (cosDist p lon lat) * (cos (rad lat) * cos (rad lon - p.lon0))) * (π / 180)))
      (p.r * ((K' * -(cos p.lat0 * cos (rad lat) * sin (rad lon - p.lon0)) * (cos p.lat0 * sin (rad lat) - sin p.lat0 * cos (rad lat) * cos (rad lon - p.lon0)) +
        K (cosDist p lon lat) * (sin p.lat0 * cos (rad lat) * sin (rad lon - p.lon0))) * (π / 180)))
      (p.r * ((K' * (sin p.lat0 * cos (rad lat) - cos p.lat0 * sin (rad lat) * cos (rad lon - p.lon0)) * (cos (rad lat) * sin (rad lon - p.lon0)) +
        K (cosDist p lon lat) * -(sin (rad lat) * sin (rad lon - p.lon0))) * (π / 180)))
      (p.r * ((K' * (sin p.lat0 * cos (rad lat) - cos p.lat0 * sin (rad lat) * cos (rad lon - p.lon0)) * (cos p.lat0 * sin (rad lat) - sin p.lat0 * cos (rad lat) * cos (rad lon - p.lon0)) +
        K (cosDist p lon lat) * (cos p.lat0 * cos (rad lat) + sin p.lat0 * sin (rad lat) * cos (rad lon - p.lon0))) * (π / 180))) := by
  have dlon : HasDerivAt (fun l => rad l - p.lon0) (π / 180) lon := (rad_deriv lon).sub_const _
  have dlat := rad_deriv lat
  have C1 : HasDerivAt (fun l => cosDist p l lat) (cos p.lat0 * cos (rad lat) * (-sin (rad lon - p.lon0) * (π / 180))) lon :=
    (dlon.cos.const_mul _).const_add _
  have C2 : HasDerivAt (fun l => cosDist p lon l)
      (sin p.lat0 * (cos (rad lat) * (π / 180)) + cos p.lat0 * (-sin (rad lat) * (π / 180)) * cos (rad lon - p.lon0)) lat :=
    (dlat.sin.const_mul _).add ((dlat.cos.const_mul _).mul_const _)
  have A1 : HasDerivAt (fun l => cos (rad lat) * sin (rad l - p.lon0)) (cos (rad lat) * (cos (rad lon - p.lon0) * (π / 180))) lon := dlon.sin.const_mul _
  have A2 : HasDerivAt (fun l => cos (rad l) * sin (rad lon - p.lon0)) (-sin (rad lat) * (π / 180) * sin (rad lon - p.lon0)) lat := dlat.cos.mul_const _
  have B1 : HasDerivAt (fun l => cos p.lat0 * sin (rad lat) - sin p.lat0 * cos (rad lat) * cos (rad l - p.lon0))
      (-(sin p.lat0 * cos (rad lat) * (-sin (rad lon - p.lon0) * (π / 180)))) lon := (dlon.cos.const_mul _).const_sub _
  have B2 : HasDerivAt (fun l => cos p.lat0 * sin (rad l) - sin p.lat0 * cos (rad l) * cos (rad lon - p.lon0))
      (cos p.lat0 * (cos (rad lat) * (π / 180)) - sin p.lat0 * (-sin (rad lat) * (π / 180)) * cos (rad lon - p.lon0)) lat :=
    (dlat.sin.const_mul _).sub ((dlat.cos.const_mul _).mul_const _)
  have K1 : HasDerivAt (fun l => p.r * K (cosDist p l lat)) _ lon := (HasDerivAt.comp (h := fun l => cosDist p l lat) lon hK C1).const_mul p.r
  have K2 : HasDerivAt (fun l => p.r * K (cosDist p lon l)) _ lat := (HasDerivAt.comp (h := fun l => cosDist p lon l) lat hK C2).const_mul p.r
  refine ⟨⟨_, _, ?_, (K1.mul A1).congr_deriv ?_, (K1.mul B1).congr_deriv ?_⟩, ⟨_, _, ?_, (K2.mul A2).congr_deriv ?_, (K2.mul B2).congr_deriv ?_⟩⟩
  · filter_upwards [C1.continuousAt.eventually hg] with l hl
    exact hl l lat rfl
  · ring
  · ring
  · filter_upwards [C2.continuousAt.eventually hg] with l hl
    exact hl lon l rfl
  · ring
  · ring

theorem Stereographic.local_scale (p : Sphere) (hr : 0 < p.r) {lon lat : ℝ} (h : |lat| < 90) (hs : cosDist p lon lat ≠ -1) :
    Spec.LocalScale (Stereographic.geo2rect p) p.r p.r lon lat (2 / (1 + cosDist p lon lat)) (2 / (1 + cosDist p lon lat)) := by
  have hu : 0 < 1 + cosDist p lon lat := by
    have := lt_of_le_of_ne (cosDist_range p lon lat).1 hs.symm
    linarith
  have hK : HasDerivAt (fun C => 2 / (1 + C)) (-2 / (1 + cosDist p lon lat) ^ 2) (cosDist p lon lat) := by
    have := (hasDerivAt_const (cosDist p lon lat) (2 : ℝ)).div ((hasDerivAt_id (cosDist p lon lat)).const_add 1) hu.ne'
    refine this.congr_deriv ?_
    simp only [id]
    ring
  refine conformal_of hr (by positivity) h (plane_partials p hK ?_) ?_ ?_ ?_
  · filter_upwards [(continuousAt_id.const_add (1 : ℝ)).eventually_ne hu.ne'] with C hC l m e
    simp only [id] at hC
    rw [Stereographic.geo2rect, e, rdiv_ok hC]
    rfl
  all_goals
    have e := cosDist.eq_1 p lon lat
    set C := cosDist p lon lat
    have h0 := sin_sq_add_cos_sq p.lat0
    have h1 := sin_sq_add_cos_sq (rad lat)
    have h2 := sin_sq_add_cos_sq (rad lon - p.lon0)
    set s := sin p.lat0
    set c := cos p.lat0
    set sφ := sin (rad lat)
    set cφ := cos (rad lat)
    set S := sin (rad lon - p.lon0)
    set T := cos (rad lon - p.lon0)
    field_simp
    clear hK hr h hs
    clear_value C s c sφ cφ S T
    grind

theorem AzimuthalEqualArea.area_scale (p : Sphere) {lon lat : ℝ} (hs : cosDist p lon lat ≠ -1) :
    Spec.AreaScale (AzimuthalEqualArea.geo2rect p) p.r lon lat 1 := by
  have hu : 0 < 1 + cosDist p lon lat := by
    have := lt_of_le_of_ne (cosDist_range p lon lat).1 hs.symm
    linarith
  have hK0 : HasDerivAt (fun C => 2 / (1 + C)) (-2 / (1 + cosDist p lon lat) ^ 2) (cosDist p lon lat) := by
    have := (hasDerivAt_const (cosDist p lon lat) (2 : ℝ)).div ((hasDerivAt_id (cosDist p lon lat)).const_add 1) hu.ne'
    refine this.congr_deriv ?_
    simp only [id]
    ring
  have hK := hK0.sqrt (by positivity)
  refine ⟨_, _, _, _, plane_partials p hK ?_, ?_⟩
  · filter_upwards [continuousAt_const.eventually_lt (continuousAt_id.const_add (1 : ℝ)) hu] with C hC l m e
    simp only [id] at hC
    rw [AzimuthalEqualArea.geo2rect, e, rdiv_ok hC.ne']
    change (rsqrt (2 / (1 + C)) >>= _) = _
    rw [rsqrt_ok (div_nonneg zero_le_two hC.le)]
    rfl
  · rw [rad_eq lat]
    have e := cosDist.eq_1 p lon lat
    have hk : √(2 / (1 + cosDist p lon lat)) ^ 2 = 2 / (1 + cosDist p lon lat) := sq_sqrt (by positivity)
    have hk0 : 0 < √(2 / (1 + cosDist p lon lat)) := sqrt_pos.mpr (by positivity)
    set k := √(2 / (1 + cosDist p lon lat))
    set C := cosDist p lon lat
    have h0 := sin_sq_add_cos_sq p.lat0
    have h1 := sin_sq_add_cos_sq (rad lat)
    have h2 := sin_sq_add_cos_sq (rad lon - p.lon0)
    set s := sin p.lat0
    set c := cos p.lat0
    set sφ := sin (rad lat)
    set cφ := cos (rad lat)
    set S := sin (rad lon - p.lon0)
    set T := cos (rad lon - p.lon0)
    have hk' : k ^ 2 * (1 + C) = 2 := by rw [hk]; field_simp
    have hd : -2 / (1 + C) ^ 2 / (2 * k) = -(k / (2 * (1 + C))) := by
      field_simp
      linarith
    rw [hd]
    have j1 : cφ * T * (c * cφ + s * sφ * T) - s * cφ * S * -(sφ * S) = cφ * C := by
      clear_value C s c sφ cφ S T
      grind
    have j2 : -(c * cφ * S) * (cφ * S * (c * cφ + s * sφ * T) - (c * sφ - s * cφ * T) * -(sφ * S)) +
        (s * cφ - c * sφ * T) * (cφ * T * (c * sφ - s * cφ * T) - s * cφ * S * (cφ * S)) = -(cφ * (1 - C ^ 2)) := by
      clear_value C s c sφ cφ S T
      grind
    have j3 : k ^ 2 * C + k ^ 2 / (2 * (1 + C)) * (1 - C ^ 2) = 1 := by
      rw [hk]
      field_simp
      ring
    linear_combination (p.r * (π / 180)) ^ 2 * (k ^ 2 * j1 - k ^ 2 / (2 * (1 + C)) * j2 + cφ * j3)

/-! ### Eckert IV -/

theorem EckertIV.const : EckertIV.CX * EckertIV.CY * EckertIV.C = 2 := by
  have hp := pi_pos
  have h1 : √(4 * π + π * π) = √π * √(4 + π) := by
    rw [← sqrt_mul hp.le]
    congr 1
    ring
  have h2 : √(π / (4 + π)) = √π / √(4 + π) := sqrt_div hp.le _
  have h3 : √(4 + π) ^ 2 = 4 + π := sq_sqrt (by linarith)
  have h4 : 0 < √(4 + π) := sqrt_pos.mpr (by linarith)
  have h5 : 0 < √π := sqrt_pos.mpr hp
  rw [EckertIV.CX, EckertIV.CY, EckertIV.C, h1, h2]
  field_simp
  linear_combination -h3

theorem deg_deriv (x : ℝ) : HasDerivAt deg (180 / π) x := by
  have := ((hasDerivAt_id x).mul_const 180).div_const π
  refine this.congr_deriv ?_
  ring

theorem EckertIV.rect2geo_ok (p : Sphere) (hr : 0 < p.r) (x : ℝ) {y : ℝ} (h : |y| < EckertIV.CY * p.r) :
    EckertIV.rect2geo p x y = .ok (deg (p.lon0 + x / (EckertIV.CX * p.r * (1 + cos (arcsin (y / (EckertIV.CY * p.r)))))),
      deg (arcsin (EckertIV.G (arcsin (y / (EckertIV.CY * p.r))) / EckertIV.C))) := by
  have hy := mul_pos EckertIV.CY_pos hr
  rw [abs_lt] at h
  have b1 : -1 ≤ y / (EckertIV.CY * p.r) := by
    rw [le_div_iff₀ hy]
    linarith
  have b2 : y / (EckertIV.CY * p.r) ≤ 1 := by
    rw [div_le_iff₀ hy]
    linarith
  have e := EckertIV.rect2geo_eq p hr.ne' (x / (EckertIV.CX * p.r * (1 + cos (arcsin (y / (EckertIV.CY * p.r)))))) (neg_pi_div_two_le_arcsin (y / (EckertIV.CY * p.r)))
    (arcsin_le_pi_div_two (y / (EckertIV.CY * p.r)))
  have hx := mul_pos EckertIV.CX_pos hr
  have hc := cos_arcsin_nonneg (y / (EckertIV.CY * p.r))
  rw [sin_arcsin b1 b2] at e
  rw [← e]
  have h3 : 0 < EckertIV.CX * p.r * (1 + cos (arcsin (y / (EckertIV.CY * p.r)))) := mul_pos hx (by linarith)
  congr 1
  · rw [mul_right_comm, mul_div_cancel₀ _ h3.ne']
  · rw [mul_div_cancel₀ _ hy.ne']

/-- The inverse projection shrinks areas by the area of a small geographic cell. -/
theorem EckertIV.area_scale (p : Sphere) (hr : 0 < p.r) (x : ℝ) {y : ℝ} (h : |y| < EckertIV.CY * p.r) :
    ∃ lon lat lonx latx lony laty, EckertIV.rect2geo p x y = .ok (lon, lat) ∧ |lat| < 90 ∧
      Spec.HasPartials (EckertIV.rect2geo p) x y lonx latx lony laty ∧
      (lonx * laty - latx * lony) * ((p.r * π / 180) * (p.r * cos (lat * π / 180) * π / 180)) = 1 := by
  have hp := pi_pos
  have hy := mul_pos EckertIV.CY_pos hr
  have hX := mul_pos EckertIV.CX_pos hr
  have hC := EckertIV.C_pos
  have near : ∀ᶠ v in 𝓝 y, |v| < EckertIV.CY * p.r := continuous_abs.continuousAt.eventually_lt continuousAt_const h
  have h' := abs_lt.mp h
  set θ := arcsin (y / (EckertIV.CY * p.r)) with hθ
  have b1 : -1 < y / (EckertIV.CY * p.r) := by
    rw [lt_div_iff₀ hy]
    linarith
  have b2 : y / (EckertIV.CY * p.r) < 1 := by
    rw [div_lt_iff₀ hy]
    linarith
  have t1 : -(π / 2) < θ := neg_pi_div_two_lt_arcsin.mpr b1
  have t2 : θ < π / 2 := arcsin_lt_pi_div_two.mpr b2
  have hct : 0 < cos θ := cos_pos_of_mem_Ioo ⟨t1, t2⟩
  have g1 : -1 < EckertIV.G θ / EckertIV.C := by
    have := EckertIV.G_mono ⟨le_rfl, by linarith⟩ ⟨t1.le, t2.le⟩ t1
    rw [EckertIV.G_neg, EckertIV.G_half_pi] at this
    rw [lt_div_iff₀ hC]
    linarith
  have g2 : EckertIV.G θ / EckertIV.C < 1 := by
    have := EckertIV.G_mono ⟨t1.le, t2.le⟩ ⟨by linarith, le_rfl⟩ t2
    rw [EckertIV.G_half_pi] at this
    rw [div_lt_iff₀ hC]
    linarith
  set φ := arcsin (EckertIV.G θ / EckertIV.C) with hφ
  have f1 : -(π / 2) < φ := neg_pi_div_two_lt_arcsin.mpr g1
  have f2 : φ < π / 2 := arcsin_lt_pi_div_two.mpr g2
  have hcφ : 0 < cos φ := cos_pos_of_mem_Ioo ⟨f1, f2⟩
  have dθ : HasDerivAt (fun v => arcsin (v / (EckertIV.CY * p.r))) (1 / cos θ * (1 / (EckertIV.CY * p.r))) y := by
    have := HasDerivAt.comp (h := fun v => v / (EckertIV.CY * p.r)) y (hasDerivAt_arcsin b1.ne' b2.ne) ((hasDerivAt_id y).div_const _)
    rw [← cos_arcsin, ← hθ] at this
    exact this
  have dG : HasDerivAt (fun v => EckertIV.G (arcsin (v / (EckertIV.CY * p.r))) / EckertIV.C)
      (2 * cos θ * (1 + cos θ) * (1 / cos θ * (1 / (EckertIV.CY * p.r))) / EckertIV.C) y :=
    (HasDerivAt.comp (h := fun v => arcsin (v / (EckertIV.CY * p.r))) y (EckertIV.G_deriv θ) dθ).div_const _
  have dφ : HasDerivAt (fun v => deg (arcsin (EckertIV.G (arcsin (v / (EckertIV.CY * p.r))) / EckertIV.C)))
      (180 / π * (1 / cos φ * (2 * cos θ * (1 + cos θ) * (1 / cos θ * (1 / (EckertIV.CY * p.r))) / EckertIV.C))) y := by
    have := HasDerivAt.comp (h := fun v => EckertIV.G (arcsin (v / (EckertIV.CY * p.r))) / EckertIV.C) y (hasDerivAt_arcsin g1.ne' g2.ne) dG
    rw [← cos_arcsin, ← hφ] at this
    exact HasDerivAt.comp (h := fun v => arcsin (EckertIV.G (arcsin (v / (EckertIV.CY * p.r))) / EckertIV.C)) y (deg_deriv _) this
  have dl1 : HasDerivAt (fun v => deg (p.lon0 + v / (EckertIV.CX * p.r * (1 + cos θ)))) (180 / π * (1 / (EckertIV.CX * p.r * (1 + cos θ)))) x :=
    HasDerivAt.comp (h := fun v => p.lon0 + v / (EckertIV.CX * p.r * (1 + cos θ))) x (deg_deriv _) (((hasDerivAt_id x).div_const _).const_add _)
  have dl2 := HasDerivAt.comp (h := fun v => p.lon0 + x / (EckertIV.CX * p.r * (1 + cos (arcsin (v / (EckertIV.CY * p.r)))))) y (deg_deriv _)
    ((((hasDerivAt_const y x).div ((dθ.cos.const_add 1).const_mul (EckertIV.CX * p.r)) (by rw [← hθ]; positivity))).const_add p.lon0)
  refine ⟨_, _, _, _, _, _, EckertIV.rect2geo_ok p hr x h, ?_,
    ⟨⟨_, _, Filter.Eventually.of_forall fun v => EckertIV.rect2geo_ok p hr v h, dl1, hasDerivAt_const _ _⟩,
      ⟨_, _, near.mono fun v hv => EckertIV.rect2geo_ok p hr x hv, dl2, dφ⟩⟩, ?_⟩
  · rw [abs_lt, ← deg_rad 90, ← deg_neg, deg_lt, deg_lt, rad_90]
    exact ⟨f1, f2⟩
  · rw [rad_eq (deg _), rad_deg, ← hθ, ← hφ, zero_mul, sub_zero]
    have := EckertIV.const
    have h1 := EckertIV.CX_pos
    have h2 := EckertIV.CY_pos
    have h3 : (0 : ℝ) < 1 + cos θ := by linarith
    field_simp
    linarith

/-! ### The iteration of the ellipsoidal Mercator -/

theorem EMercator.improve_deriv {e t : ℝ} (h0 : 0 ≤ e) (h1 : e < 1) (l : ℝ) :
    HasDerivAt (EMercator.improve e t) (2 * (t * EMercator.factor e l) / (1 + (t * EMercator.factor e l) ^ 2) * (e ^ 2 * cos l / ((1 - e * sin l) * (1 + e * sin l)))) l := by
  have hF : ∀ x, EMercator.factor e x = exp (e / 2 * log ((1 - e * sin x) / (1 + e * sin x))) := by
    intro x
    obtain ⟨w1, w2⟩ := EMercator.w_pos h0 h1 x
    rw [EMercator.factor, rpow_def_of_pos (div_pos w1 w2), mul_comm]
  have dF : HasDerivAt (EMercator.factor e) (EMercator.factor e l * (-(e ^ 2 * cos l) / ((1 - e * sin l) * (1 + e * sin l)))) l := by
    rw [hF l, funext hF]
    exact (EMercator.factor_deriv h0 h1 l).exp
  have := (((dF.const_mul t).arctan).const_mul 2).const_sub (π / 2)
  refine this.congr_deriv ?_
  ring

theorem EMercator.contract {e t : ℝ} (h0 : 0 ≤ e) (h1 : 2 * e ^ 2 ≤ 1) (l l' : ℝ) :
    |EMercator.improve e t l - EMercator.improve e t l'| ≤ e ^ 2 * |l - l'| := by
  have he : e < 1 := by nlinarith
  have key := Convex.norm_image_sub_le_of_norm_hasDerivWithin_le (s := Set.univ) (f := EMercator.improve e t) (C := e ^ 2) (x := l') (y := l)
    (fun x _ => (EMercator.improve_deriv h0 he x).hasDerivWithinAt) (fun x _ => ?_) convex_univ (Set.mem_univ _) (Set.mem_univ _)
  · exact key
  · set q := t * EMercator.factor e x
    obtain ⟨w1, w2⟩ := EMercator.w_pos h0 he x
    have hq : |2 * q / (1 + q ^ 2)| ≤ 1 := by
      have hpos : 0 < 1 + q ^ 2 := by positivity
      rw [abs_div, abs_of_pos hpos, div_le_one hpos, abs_le]
      constructor <;> nlinarith [sq_nonneg (q - 1), sq_nonneg (q + 1)]
    have hw : |e ^ 2 * cos x / ((1 - e * sin x) * (1 + e * sin x))| ≤ e ^ 2 := by
      have hpos := mul_pos w1 w2
      rw [abs_div, abs_of_pos hpos, div_le_iff₀ hpos, abs_mul, abs_of_nonneg (sq_nonneg e)]
      refine mul_le_mul_of_nonneg_left ?_ (sq_nonneg e)
      have hs : (1 - e * sin x) * (1 + e * sin x) = 1 - e ^ 2 + e ^ 2 * |cos x| ^ 2 := by
        rw [sq_abs]
        linear_combination (-e ^ 2) * sin_sq_add_cos_sq x
      rw [hs]
      have hc := abs_cos_le_one x
      have hc0 := abs_nonneg (cos x)
      nlinarith [mul_nonneg (sub_nonneg.mpr hc) (show 0 ≤ 1 - e ^ 2 - e ^ 2 * |cos x| by nlinarith)]
    rw [norm_mul]
    calc ‖2 * q / (1 + q ^ 2)‖ * ‖e ^ 2 * cos x / ((1 - e * sin x) * (1 + e * sin x))‖ ≤ 1 * e ^ 2 := mul_le_mul hq hw (norm_nonneg _) zero_le_one
      _ = e ^ 2 := one_mul _

end Proj
end Coral
