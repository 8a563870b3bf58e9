import Verif.Proofs.Mercator
import Verif.Spec.Chart
import Mathlib.Analysis.SpecialFunctions.Trigonometric.Deriv
import Mathlib.Analysis.SpecialFunctions.Log.Deriv
import Mathlib.Analysis.SpecialFunctions.Sqrt
import Mathlib.Analysis.SpecialFunctions.Trigonometric.ArctanDeriv

namespace Coral
namespace Proj

open Real Topology

theorem rad_deriv (x : ℝ) : HasDerivAt rad (π / 180) x := by
  have := ((hasDerivAt_id x).mul_const π).div_const 180
  refine this.congr_deriv ?_
  ring

theorem rad_eq (x : ℝ) : x * π / 180 = rad x := rfl

theorem near_lat {lat : ℝ} (h : |lat| < 90) : ∀ᶠ l in 𝓝 lat, |l| < 90 :=
  continuous_abs.continuousAt.eventually_lt continuousAt_const h

/-- Off the seam, `corangle` is locally a translation. -/
theorem corangle_local {f : ℝ → ℝ} {x : ℝ} (hf : ContinuousAt f x) (h : cos (f x) ≠ -1) :
    ∃ k : ℤ, ∀ᶠ y in 𝓝 x, corangle (f y) = f y + 2 * π * k := by
  obtain ⟨k, hk⟩ := corangle_turns (f x)
  obtain ⟨r1, r2⟩ := corangle_range (f x)
  have hcos : cos (corangle (f x)) = cos (f x) := by rw [hk, cos_turns]
  have n1 : corangle (f x) ≠ -π := by
    intro e
    rw [e, cos_neg, cos_pi] at hcos
    exact h hcos.symm
  have n2 : corangle (f x) ≠ π := by
    intro e
    rw [e, cos_pi] at hcos
    exact h hcos.symm
  have h1 : -π < f x + 2 * π * k := by
    rw [← hk]
    exact lt_of_le_of_ne r1 n1.symm
  have h2 : f x + 2 * π * k < π := by
    rw [← hk]
    exact lt_of_le_of_ne r2 n2
  have hc : ContinuousAt (fun y => f y + 2 * π * k) x := hf.add continuousAt_const
  refine ⟨k, ?_⟩
  filter_upwards [hc.eventually_lt continuousAt_const h2, continuousAt_const.eventually_lt hc h1] with y a b
  exact corangle_of_turns (k := -k) (by push_cast; ring) b a

theorem lon_local (p0 lon : ℝ) (h : cos (rad lon - p0) ≠ -1) :
    ∃ X : ℝ → ℝ, (∀ᶠ l in 𝓝 lon, corangle (rad l - p0) = X l) ∧ HasDerivAt X (π / 180) lon := by
  have hd : HasDerivAt (fun l => rad l - p0) (π / 180) lon := (rad_deriv lon).sub_const p0
  obtain ⟨k, hk⟩ := corangle_local hd.continuousAt h
  exact ⟨_, hk, hd.add_const (2 * π * k)⟩

/-- The derivative of the Mercator ordinate. -/
theorem isometric_deriv {φ : ℝ} (h : 0 < cos φ) : HasDerivAt (fun x => log ((1 + sin x) / cos x)) (1 / cos φ) φ := by
  have hs := one_add_sin_pos h
  have := (((hasDerivAt_sin φ).const_add 1).div (hasDerivAt_cos φ) h.ne').log (div_pos hs h).ne'
  refine this.congr_deriv ?_
  simp only [Pi.div_apply]
  field_simp
  linear_combination sin_sq_add_cos_sq φ

theorem Mercator.scale_ok (p : Sphere) (lon : ℝ) {lat : ℝ} (h : |lat| < 90) : Mercator.scale p lon lat = .ok (1 / cos (rad lat)) :=
  rdiv_ok (cos_rad_pos h).ne'

theorem Mercator.local_scale (p : Sphere) (hr : 0 < p.r) {lon lat : ℝ} (h : |lat| < 90) (hs : cos (rad lon - p.lon0) ≠ -1) :
    Spec.LocalScale (Mercator.geo2rect p) p.r p.r lon lat (1 / cos (rad lat)) (1 / cos (rad lat)) := by
  have hp := pi_pos
  have hc := cos_rad_pos h
  obtain ⟨X, hX, hX'⟩ := lon_local p.lon0 lon hs
  have hy : HasDerivAt (fun l => p.r * log ((1 + sin (rad l)) / cos (rad l))) (p.r * (1 / cos (rad lat) * (π / 180))) lat :=
    (HasDerivAt.comp (h := rad) lat (isometric_deriv hc) (rad_deriv lat)).const_mul p.r
  refine ⟨p.r * (π / 180), 0, 0, p.r * (1 / cos (rad lat) * (π / 180)), ⟨⟨fun l => p.r * X l, fun _ => p.r * log ((1 + sin (rad lat)) / cos (rad lat)), ?_, hX'.const_mul p.r, hasDerivAt_const _ _⟩,
    ⟨fun _ => p.r * corangle (rad lon - p.lon0), _, ?_, hasDerivAt_const _ _, hy⟩⟩, ?_, ?_, ?_, ?_⟩
  · filter_upwards [hX] with l hl
    rw [Mercator.geo2rect_eq p l h, hl]
  · filter_upwards [near_lat h] with l hl
    rw [Mercator.geo2rect_eq p lon hl]
  · rw [zero_pow two_ne_zero, zero_add, sqrt_sq (by positivity)]
    ring
  · rw [zero_pow two_ne_zero, add_zero, sqrt_sq (by positivity), rad_eq lat]
    field_simp
  · ring
  · rw [zero_mul, sub_zero]
    positivity

/-! ### EMercator -/

theorem EMercator.w_pos {e : ℝ} (h0 : 0 ≤ e) (h1 : e < 1) (φ : ℝ) : 0 < 1 - e * sin φ ∧ 0 < 1 + e * sin φ := by
  have a := neg_one_le_sin φ
  have b := sin_le_one φ
  constructor <;> nlinarith

theorem EMercator.geo2rect_eq (p : Spheroid) (h0 : 0 ≤ p.ell.e) (h1 : p.ell.e < 1) (lon : ℝ) {lat : ℝ} (h : |lat| < 90) :
    EMercator.geo2rect p lon lat = .ok (p.ell.a * corangle (rad lon - p.lon0),
      p.ell.a * (log ((1 + sin (rad lat)) / cos (rad lat)) + p.ell.e / 2 * log ((1 - p.ell.e * sin (rad lat)) / (1 + p.ell.e * sin (rad lat))))) := by
  obtain ⟨l1, l2⟩ := rad_bounds h
  obtain ⟨hc, ht⟩ := half_angle l1 l2
  have hp := cos_rad_pos h
  have hs : lat ≠ -90 := by
    rw [abs_lt] at h
    exact h.1.ne'
  have hF := EMercator.factor_pos h0 h1 (rad lat)
  have hT := div_pos (one_add_sin_pos hp) hp
  obtain ⟨w1, w2⟩ := EMercator.w_pos h0 h1 (rad lat)
  rw [EMercator.geo2rect, if_neg hs, rtan_ok hc, ht]
  change (rlog _ >>= _) = _
  rw [rlog_ok (mul_pos hT hF), log_mul hT.ne' hF.ne', EMercator.factor, log_rpow (div_pos w1 w2)]
  rfl

theorem EMercator.factor_deriv {e : ℝ} (h0 : 0 ≤ e) (h1 : e < 1) (φ : ℝ) :
    HasDerivAt (fun x => e / 2 * log ((1 - e * sin x) / (1 + e * sin x))) (-(e ^ 2 * cos φ) / ((1 - e * sin φ) * (1 + e * sin φ))) φ := by
  obtain ⟨w1, w2⟩ := EMercator.w_pos h0 h1 φ
  have d := (hasDerivAt_sin φ).const_mul e
  have := (((d.const_sub 1).div (d.const_add 1) w2.ne').log (div_pos w1 w2).ne').const_mul (e / 2)
  refine this.congr_deriv ?_
  simp only [Pi.div_apply]
  field_simp
  ring

theorem EMercator.scale_ok (p : Spheroid) (h0 : 0 ≤ p.ell.e) (h1 : p.ell.e < 1) (lon : ℝ) {lat : ℝ} (h : |lat| < 90) :
    EMercator.scale p lon lat = .ok (√((1 - p.ell.e * sin (rad lat)) * (1 + p.ell.e * sin (rad lat))) / cos (rad lat)) := by
  obtain ⟨w1, w2⟩ := EMercator.w_pos h0 h1 (rad lat)
  have e : 1 - p.ell.e * p.ell.e * sin (rad lat) * sin (rad lat) = (1 - p.ell.e * sin (rad lat)) * (1 + p.ell.e * sin (rad lat)) := by ring
  rw [EMercator.scale, e, rsqrt_ok (mul_pos w1 w2).le]
  change rdiv _ _ = _
  rw [rdiv_ok (cos_rad_pos h).ne']

theorem EMercator.local_scale (p : Spheroid) (ha : 0 < p.ell.a) (h0 : 0 ≤ p.ell.e) (h1 : p.ell.e < 1) {lon lat : ℝ} (h : |lat| < 90)
    (hs : cos (rad lon - p.lon0) ≠ -1) {W : ℝ} (hW : W = √((1 - p.ell.e * sin (rad lat)) * (1 + p.ell.e * sin (rad lat)))) :
    Spec.LocalScale (EMercator.geo2rect p) (p.ell.a * (1 - p.ell.e ^ 2) / W ^ 3) (p.ell.a / W) lon lat (W / cos (rad lat)) (W / cos (rad lat)) := by
  have hp := pi_pos
  have hc := cos_rad_pos h
  obtain ⟨w1, w2⟩ := EMercator.w_pos h0 h1 (rad lat)
  have hWp : 0 < W := by
    rw [hW]
    exact sqrt_pos.mpr (mul_pos w1 w2)
  have hW2 : W ^ 2 = (1 - p.ell.e * sin (rad lat)) * (1 + p.ell.e * sin (rad lat)) := by
    rw [hW, sq_sqrt (mul_pos w1 w2).le]
  have he : 0 < 1 - p.ell.e ^ 2 := by nlinarith
  obtain ⟨X, hX, hX'⟩ := lon_local p.lon0 lon hs
  have hy : HasDerivAt (fun l => p.ell.a * (log ((1 + sin (rad l)) / cos (rad l)) + p.ell.e / 2 * log ((1 - p.ell.e * sin (rad l)) / (1 + p.ell.e * sin (rad l)))))
      (p.ell.a * ((1 - p.ell.e ^ 2) / (cos (rad lat) * W ^ 2) * (π / 180))) lat := by
    have := (HasDerivAt.comp (h := rad) lat ((isometric_deriv hc).add (EMercator.factor_deriv h0 h1 (rad lat))) (rad_deriv lat)).const_mul p.ell.a
    refine this.congr_deriv ?_
    rw [hW2]
    congr 2
    field_simp
    have := sin_sq_add_cos_sq (rad lat)
    linear_combination (-p.ell.e ^ 2) * this
  refine ⟨p.ell.a * (π / 180), 0, 0, p.ell.a * ((1 - p.ell.e ^ 2) / (cos (rad lat) * W ^ 2) * (π / 180)),
    ⟨⟨fun l => p.ell.a * X l, fun _ => p.ell.a * (log ((1 + sin (rad lat)) / cos (rad lat)) + p.ell.e / 2 * log ((1 - p.ell.e * sin (rad lat)) / (1 + p.ell.e * sin (rad lat)))), ?_, hX'.const_mul p.ell.a, hasDerivAt_const _ _⟩, ⟨fun _ => p.ell.a * corangle (rad lon - p.lon0), _, ?_, hasDerivAt_const _ _, hy⟩⟩, ?_, ?_, ?_, ?_⟩
  · filter_upwards [hX] with l hl
    rw [EMercator.geo2rect_eq p h0 h1 l h, hl]
  · filter_upwards [near_lat h] with l hl
    rw [EMercator.geo2rect_eq p h0 h1 lon hl]
  · rw [zero_pow two_ne_zero, zero_add, sqrt_sq (by positivity)]
    field_simp
  · rw [zero_pow two_ne_zero, add_zero, sqrt_sq (by positivity), rad_eq lat]
    field_simp
  · ring
  · rw [zero_mul, sub_zero]
    positivity

/-! ### ConicEqualArea -/

theorem Conic.geo2rect_eq (q : Conic) (hn : q.n ≠ 0) (lon lat : ℝ) (h : 0 ≤ q.c - 2 * q.n * sin (rad lat)) :
    Conic.geo2rect q lon lat = .ok (q.r * √(q.c - 2 * q.n * sin (rad lat)) / q.n * sin (q.n * rad lon),
      q.p0 - q.r * √(q.c - 2 * q.n * sin (rad lat)) / q.n * cos (q.n * rad lon)) := by
  rw [Conic.geo2rect, rsqrt_ok h]
  change (rdiv _ q.n >>= _) = _
  rw [rdiv_ok hn]
  rfl

theorem Conic.local_scale (q : Conic) (hr : 0 < q.r) (hn : q.n ≠ 0) {lon lat : ℝ} (h : |lat| < 90) (hw : 0 < q.c - 2 * q.n * sin (rad lat)) :
    Spec.LocalScale (Conic.geo2rect q) q.r q.r lon lat (cos (rad lat) / √(q.c - 2 * q.n * sin (rad lat))) (√(q.c - 2 * q.n * sin (rad lat)) / cos (rad lat)) := by
  have hp := pi_pos
  have hc := cos_rad_pos h
  have hwd : HasDerivAt (fun l => q.c - 2 * q.n * sin (rad l)) (-(2 * q.n * (cos (rad lat) * (π / 180)))) lat :=
    (((HasDerivAt.comp (h := rad) lat (hasDerivAt_sin (rad lat)) (rad_deriv lat)).const_mul (2 * q.n)).const_sub q.c)
  set w := √(q.c - 2 * q.n * sin (rad lat)) with hwe
  have hwp : 0 < w := sqrt_pos.mpr hw
  have hpd : HasDerivAt (fun l => q.r * √(q.c - 2 * q.n * sin (rad l)) / q.n) (-(q.r * cos (rad lat) / w * (π / 180))) lat := by
    have := ((hwd.sqrt hw.ne').const_mul q.r).div_const q.n
    refine this.congr_deriv ?_
    rw [← hwe]
    field_simp
  have hld : HasDerivAt (fun l => q.n * rad l) (q.n * (π / 180)) lon := (rad_deriv lon).const_mul q.n
  have hev : ∀ᶠ l in 𝓝 lat, 0 < q.c - 2 * q.n * sin (rad l) := continuousAt_const.eventually_lt hwd.continuousAt hw
  set t := q.n * rad lon with ht
  have hsc := sin_sq_add_cos_sq t
  refine ⟨q.r * w / q.n * (cos t * (q.n * (π / 180))), -(q.r * w / q.n * (-sin t * (q.n * (π / 180)))),
    -(q.r * cos (rad lat) / w * (π / 180)) * sin t, -(-(q.r * cos (rad lat) / w * (π / 180)) * cos t),
    ⟨⟨_, _, Filter.Eventually.of_forall fun l => Conic.geo2rect_eq q hn l lat hw.le, hld.sin.const_mul _, (hld.cos.const_mul _).const_sub _⟩,
      ⟨_, _, hev.mono fun l hl => Conic.geo2rect_eq q hn lon l hl.le, hpd.mul_const _, (hpd.mul_const _).const_sub _⟩⟩, ?_, ?_, ?_, ?_⟩
  · have : (-(q.r * cos (rad lat) / w * (π / 180)) * sin t) ^ 2 + (-(-(q.r * cos (rad lat) / w * (π / 180)) * cos t)) ^ 2 = (q.r * cos (rad lat) / w * (π / 180)) ^ 2 := by
      linear_combination (q.r * cos (rad lat) / w * (π / 180)) ^ 2 * hsc
    rw [this, sqrt_sq (by positivity)]
    ring
  · have : (q.r * w / q.n * (cos t * (q.n * (π / 180)))) ^ 2 + (-(q.r * w / q.n * (-sin t * (q.n * (π / 180))))) ^ 2 = (q.r * w * (π / 180)) ^ 2 := by
      field_simp
      linear_combination hsc
    rw [this, sqrt_sq (by positivity), rad_eq lat]
    field_simp
  · ring
  · have : q.r * w / q.n * (cos t * (q.n * (π / 180))) * -(-(q.r * cos (rad lat) / w * (π / 180)) * cos t) -
        -(q.r * w / q.n * (-sin t * (q.n * (π / 180)))) * (-(q.r * cos (rad lat) / w * (π / 180)) * sin t) = q.r ^ 2 * cos (rad lat) * (π / 180) ^ 2 := by
      field_simp
      linear_combination hsc
    rw [this]
    positivity

theorem Conic.scale_ok (q : Conic) (lon lat : ℝ) (hw : 0 < q.c - 2 * q.n * sin (rad lat)) :
    Conic.scale q lon lat = .ok (cos (rad lat) / √(q.c - 2 * q.n * sin (rad lat))) := by
  rw [Conic.scale, rsqrt_ok hw.le]
  change rdiv _ _ = _
  rw [rdiv_ok (sqrt_pos.mpr hw).ne']

end Proj
end Coral
