import Verif.Proofs.AreaMaps
import Verif.Props.Proj

/-!
# C105-C108: what map projections keep near a point
-/
namespace Coral
namespace Proj

open Real Spec Sph

/-! ## C105: `scale` of the transverse and the oblique Mercator projection -/

/-- C105: off the upper and lower border of the map, `scale` is the stretch in all directions. -/
theorem C105_transverse (p : Sphere) (hr : 0 < p.r) (lon lat x y : ℝ) (h : |lat| < 90) (hg : TransMercator.geo2rect p lon lat = .ok (x, y))
    (hy : |y| < π * p.r) :
    ∃ k, TransMercator.scale p lon lat = .ok k ∧ LocalScale (TransMercator.geo2rect p) p.r p.r lon lat k k := by
  have hb : |cos (rad lat) * sin (rad lon - p.lon0)| < 1 := by
    rw [abs_lt]
    by_contra hc
    rw [TransMercator.geo2rect] at hg
    split_ifs at hg with hb
    rw [not_or] at hb
    have : ratanh (cos (rad lat) * sin (rad lon - p.lon0)) = .error .valueError := by
      rw [ratanh, if_pos]
      by_contra hd
      rw [not_or, not_le, not_le] at hd
      exact hc hd
    rw [this] at hg
    cases hg
  rw [TransMercator.geo2rect_eq p lon h hb] at hg
  cases hg
  refine TransMercator.local_scale p hr h hb ?_
  rw [abs_mul, abs_of_pos hr, mul_comm] at hy
  exact lt_of_mul_lt_mul_right hy hr.le

/-- C105: off the meridians a quarter away, where the projection raises, `scale` is the stretch in all directions. -/
theorem C105_oblique (p : Sphere) (hr : 0 < p.r) (lon lat x y : ℝ) (h : |lat| < 90) (hg : ObliqMercator.geo2rect p lon lat = .ok (x, y)) :
    ∃ k, ObliqMercator.scale p lon lat = .ok k ∧ LocalScale (ObliqMercator.geo2rect p) p.r p.r lon lat k k := by
  refine ObliqMercator.local_scale p hr h fun hD => ?_
  rw [C28_violated_border p lon lat h hD] at hg
  cases hg

/-- London. -/
example : (∃ x y, TransMercator.geo2rect unit 0 45 = .ok (x, y) ∧ |y| < π * unit.r) ∧ ∃ x y, ObliqMercator.geo2rect unit 0 45 = .ok (x, y) := by
  have hp := pi_pos
  have hb : |cos (rad 45) * sin (rad 0 - unit.lon0)| < 1 := by simp [unit, rad_zero]
  refine ⟨⟨_, _, TransMercator.geo2rect_eq unit 0 (by norm_num) hb, ?_⟩, ?_⟩
  · have e : corangle (atan2 (tan (rad 45)) (cos (rad 0 - unit.lon0)) - unit.lat0) = π / 4 := by
      have h2 := atan2_polar (ρ := √2) (θ := π / 4) (by positivity) (by linarith) (by linarith)
      rw [sin_pi_div_four, cos_pi_div_four] at h2
      have h3 : √2 * (√2 / 2) = 1 := by
        have := mul_self_sqrt (show (0 : ℝ) ≤ 2 by norm_num)
        linarith
      rw [h3] at h2
      have h1 : rad 0 - unit.lon0 = 0 := by simp [unit, rad_zero]
      rw [rad_45, tan_pi_div_four, h1, cos_zero, h2, show unit.lat0 = 0 from rfl, sub_zero]
      exact corangle_of_turns (k := 0) (by simp) (by linarith) (by linarith)
    rw [e, show unit.r = 1 from rfl, one_mul, mul_one, abs_of_pos (by positivity)]
    linarith
  · obtain ⟨x, y, hg, _⟩ := C28_near_partial unit one_ne_zero 0 45 (by norm_num) (by simp [unit, rad_zero])
    exact ⟨x, y, hg⟩

theorem cosDist_arc (lon0 lat0 lon lat : ℝ) (r : ℝ) : cosDist (Sphere.new (some (lon0, lat0)) (some r)) lon lat = cos (arc lon0 lat0 lon lat) := by
  rw [← cos_away, away_arc]

theorem cosDist_opposite {lon0 lat0 lon lat : ℝ} (r : ℝ) (h : pos lon lat ≠ -pos lon0 lat0) :
    cosDist (Sphere.new (some (lon0, lat0)) (some r)) lon lat ≠ -1 := by
  rw [cosDist_arc]
  intro e
  apply h
  have hi : inner ℝ (pos lon lat) (-pos lon0 lat0) = 1 := by
    rw [inner_neg_right, real_inner_comm, inner_pos, ← cos_arc, e]
    norm_num
  exact (inner_eq_one_iff_of_norm_eq_one (𝕜 := ℝ) (norm_pos _ _) (by rw [norm_neg, norm_pos])).mp hi

/-! ## C106: the stereographic projection keeps angles -/

/-- C106: everywhere but opposite the centre, small lengths are stretched by `2 / (1 + cos c)` in all directions, `c` being the distance from the
centre. -/
theorem C106_conformal (lon0 lat0 r lon lat : ℝ) (hr : 0 < r) (h : |lat| < 90) (hs : pos lon lat ≠ -pos lon0 lat0) :
    LocalScale (Stereographic.geo2rect (Sphere.new (some (lon0, lat0)) (some r))) r r lon lat
      (2 / (1 + cos (arc lon0 lat0 lon lat))) (2 / (1 + cos (arc lon0 lat0 lon lat))) := by
  rw [← cosDist_arc lon0 lat0 lon lat r]
  exact Stereographic.local_scale (Sphere.new (some (lon0, lat0)) (some r)) hr h (cosDist_opposite _ hs)

/-- A position that is not opposite the centre. -/
example : pos 90 0 ≠ -pos 0 0 := by
  intro h
  have := congrArg (fun v => v 0) h
  rw [show (pos 90 0).ofLp 0 = cos (0 * π / 180) * cos (90 * π / 180) from rfl,
    show (90 : ℝ) * π / 180 = π / 2 by ring, cos_pi_div_two] at this
  simp [pos] at this

/-! ## C107: the projections called equal-area -/

/-- C107: everywhere but opposite the centre. -/
theorem C107_azimuthal (lon0 lat0 r lon lat : ℝ) (hs : pos lon lat ≠ -pos lon0 lat0) :
    AreaScale (AzimuthalEqualArea.geo2rect (Sphere.new (some (lon0, lat0)) (some r))) r lon lat 1 :=
  AzimuthalEqualArea.area_scale (Sphere.new (some (lon0, lat0)) (some r)) (cosDist_opposite _ hs)

/-- C107: a small piece of the plane, off the border lines of the map, comes from a piece of the sphere of the same area. -/
theorem C107_eckert (p : Sphere) (hr : 0 < p.r) (x y : ℝ) (h : |y| < 2 * √(π / (4 + π)) * p.r) :
    ∃ lon lat lonx latx lony laty, EckertIV.rect2geo p x y = .ok (lon, lat) ∧ |lat| < 90 ∧
      HasPartials (EckertIV.rect2geo p) x y lonx latx lony laty ∧
      (lonx * laty - latx * lony) * ((p.r * π / 180) * (p.r * cos (lat * π / 180) * π / 180)) = 1 :=
  EckertIV.area_scale p hr x h

/-! ## C108: the iteration of the ellipsoidal Mercator projection -/

theorem EMercator.fixed (p : Spheroid) (ha : 0 < p.ell.a) (h0 : 0 ≤ p.ell.e) (h1 : p.ell.e < 1) {lon lat x y : ℝ} (h : |lat| < 90)
    (hg : EMercator.geo2rect p lon lat = .ok (x, y)) : EMercator.improve p.ell.e (exp (-y / p.ell.a)) (rad lat) = rad lat := by
  obtain ⟨l1, l2⟩ := rad_bounds h
  obtain ⟨hc, _⟩ := half_angle l1 l2
  have hs : lat ≠ -90 := by
    rw [abs_lt] at h
    exact h.1.ne'
  have hF := EMercator.factor_pos h0 h1 (rad lat)
  have ht : 0 < tan (π / 4 + rad lat / 2) := tan_pos_of_pos_of_lt_pi_div_two (by linarith) (by linarith)
  rw [EMercator.geo2rect, if_neg hs, rtan_ok hc] at hg
  change (rlog _ >>= _) = _ at hg
  rw [rlog_ok (mul_pos ht hF)] at hg
  cases hg
  have e : exp (-(p.ell.a * log (tan (π / 4 + rad lat / 2) * EMercator.factor p.ell.e (rad lat))) / p.ell.a) * EMercator.factor p.ell.e (rad lat) =
      tan (π / 2 - (π / 4 + rad lat / 2)) := by
    rw [neg_div, mul_div_cancel_left₀ _ ha.ne', exp_neg, exp_log (mul_pos ht hF), tan_pi_div_two_sub]
    field_simp
  rw [EMercator.improve, e, arctan_tan (by linarith) (by linarith)]
  ring

/-- C108: for an eccentricity of at most `√(1 / 2)`, the latitude after `n` rounds of the loop is off by at most `e ^ (2 * n + 2)` of the latitude. -/
theorem C108_converges (p : Spheroid) (ha : 0 < p.ell.a) (h0 : 0 ≤ p.ell.e) (h1 : 2 * p.ell.e ^ 2 ≤ 1) (lon lat x y : ℝ) (h : |lat| < 90)
    (hg : EMercator.geo2rect p lon lat = .ok (x, y)) (n : ℕ) :
    |deg ((EMercator.improve p.ell.e (exp (-y / p.ell.a)))^[n] (π / 2 - 2 * arctan (exp (-y / p.ell.a)))) - lat| ≤ p.ell.e ^ (2 * n + 2) * |lat| := by
  have hp := pi_pos
  have he : p.ell.e < 1 := by nlinarith
  have hf := EMercator.fixed p ha h0 he h hg
  set t := exp (-y / p.ell.a)
  have key : ∀ n : ℕ, |(EMercator.improve p.ell.e t)^[n] (π / 2 - 2 * arctan t) - rad lat| ≤ p.ell.e ^ (2 * n + 2) * |rad lat| := by
    intro n
    induction n with
    | zero =>
      have e0 : π / 2 - 2 * arctan t = EMercator.improve p.ell.e t 0 := by
        rw [EMercator.improve, EMercator.factor, sin_zero, mul_zero, sub_zero, add_zero, div_one, one_rpow, mul_one]
      have := EMercator.contract (t := t) h0 h1 0 (rad lat)
      rw [hf, zero_sub, abs_neg] at this
      rw [Function.iterate_zero, id, e0, mul_zero, zero_add]
      exact this
    | succ n ih =>
      rw [Function.iterate_succ_apply']
      have := EMercator.contract (t := t) h0 h1 ((EMercator.improve p.ell.e t)^[n] (π / 2 - 2 * arctan t)) (rad lat)
      rw [hf] at this
      refine this.trans ?_
      calc _ ≤ p.ell.e ^ 2 * (p.ell.e ^ (2 * n + 2) * |rad lat|) := mul_le_mul_of_nonneg_left ih (sq_nonneg _)
        _ = _ := by ring
  have hk := key n
  have d1 : ∀ u, deg u - lat = 180 / π * (u - rad lat) := by
    intro u
    rw [deg, rad]
    field_simp
  have d2 : |lat| = 180 / π * |rad lat| := by
    rw [rad, abs_div, abs_mul, abs_of_pos hp, abs_of_pos (show (0 : ℝ) < 180 by norm_num)]
    field_simp
  have hq : 0 < 180 / π := by positivity
  rw [d1, d2, abs_mul, abs_of_pos hq]
  calc _ ≤ 180 / π * (p.ell.e ^ (2 * n + 2) * |rad lat|) := mul_le_mul_of_nonneg_left hk hq.le
    _ = _ := by ring

/-- C108: when `rect2geo` returns for the image of a position, it returns that position, the longitude up to full turns. -/
theorem C108_back (p : Spheroid) (ha : 0 < p.ell.a) (h0 : 0 ≤ p.ell.e) (h1 : 2 * p.ell.e ^ 2 ≤ 1) (lon lat x y lon' lat' : ℝ) (h : |lat| < 90)
    (hg : EMercator.geo2rect p lon lat = .ok (x, y)) (hb : EMercator.Rect2geo p x y (.ok (lon', lat'))) :
    lat' = lat ∧ ∃ k : ℤ, lon' = lon + 360 * k := by
  have he : p.ell.e < 1 := by nlinarith
  have hf := EMercator.fixed p ha h0 he h hg
  rw [EMercator.geo2rect_eq p h0 he lon h] at hg
  cases hg
  cases hb with
  | @ok l ha' hl =>
    have hl' := EMercator.loop_fix hl
    constructor
    · have := EMercator.contract (t := exp (-(p.ell.a * (log ((1 + sin (rad lat)) / cos (rad lat)) + p.ell.e / 2 * log ((1 - p.ell.e * sin (rad lat)) / (1 + p.ell.e * sin (rad lat))))) / p.ell.a)) h0 h1 l (rad lat)
      rw [hf, ← hl'] at this
      have hz : |l - rad lat| = 0 := by
        have := abs_nonneg (l - rad lat)
        nlinarith
      rw [sub_eq_zero.mp (abs_eq_zero.mp hz), deg_rad]
    · obtain ⟨k, hk⟩ := corangle_back (rad lon) p.lon0
      refine ⟨k, ?_⟩
      rw [mul_div_cancel_left₀ _ ha.ne', deg_turns_of hk]

/-- The WGS 84 ellipsoid: eight rounds are enough for 15 decimals. -/
example : 2 * wgs84.e ^ 2 ≤ 1 ∧ wgs84.e ^ (2 * 7 + 2) * 90 < 10 ^ (-15 : ℤ) := by
  have e2 : wgs84.e ^ 2 = 2 * (1 / 298.257223563) - (1 / 298.257223563) * (1 / 298.257223563) := sq_sqrt (by norm_num)
  have e16 : wgs84.e ^ (2 * 7 + 2) = (wgs84.e ^ 2) ^ 8 := by ring
  rw [e16, e2]
  norm_num

end Proj
end Coral
