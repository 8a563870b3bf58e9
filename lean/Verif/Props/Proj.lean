import Verif.Proofs.Azimuthal
import Verif.Proofs.Chart
import Verif.Proofs.Eckert
import Verif.Spec.Eckert
import Mathlib.Analysis.Real.Pi.Bounds

/-!
# C20-C28, C102, C103: map projections
-/
namespace Coral
namespace Proj

open Real Spec Sph

/-- The projections used in the examples: the centre `(0, 0)` and radius `1`. -/
noncomputable def unit : Sphere := { lon0 := 0, lat0 := 0, r := 1 }

theorem rad_zero : rad 0 = 0 := by simp [rad]

theorem rad_45 : rad 45 = π / 4 := by
  rw [rad]
  ring

/-! ## C20: Mercator -/

/-- C20: projecting and going back returns the latitude, and the longitude up to full turns. -/
theorem C20_back (p : Sphere) (hr : p.r ≠ 0) (lon lat : ℝ) (h : |lat| < 90) :
    ∃ x y, Mercator.geo2rect p lon lat = .ok (x, y) ∧ ∃ k : ℤ, Mercator.rect2geo p x y = .ok (lon + 360 * k, lat) ∧ |lon + 360 * k| ≤ 180 :=
  Mercator.back p hr lon h

/-- C20: a point of the plane comes back as it was. -/
theorem C20_forth (p : Sphere) (hr : 0 < p.r) (x y : ℝ) (h : |x| < π * p.r) :
    ∃ lon lat, Mercator.rect2geo p x y = .ok (lon, lat) ∧ |lat| < 90 ∧ Mercator.geo2rect p lon lat = .ok (x, y) :=
  Mercator.forth p hr y h

/-- C20: the south pole raises `ProjectionError`. -/
theorem C20_south (p : Sphere) (lon : ℝ) : Mercator.geo2rect p lon (-90) = .error .projectionError := if_pos rfl

example : ∃ x y, Mercator.geo2rect unit 190 45 = .ok (x, y) ∧ Mercator.rect2geo unit x y = .ok (-170, 45) := by
  obtain ⟨x, y, h, k, hk, hb⟩ := C20_back unit one_ne_zero 190 45 (by norm_num)
  refine ⟨x, y, h, ?_⟩
  rw [abs_le] at hb
  have h1 : (k : ℝ) < 0 := by linarith
  have h2 : (-2 : ℝ) < k := by linarith
  have : k = -1 := by
    have a : k < 0 := by exact_mod_cast h1
    have b : -2 < k := by exact_mod_cast h2
    omega
  rw [hk, this]
  norm_num

/-! ## C21: the scale of the Mercator projections -/

/-- C21: `scale` is the stretch to the north and to the east, and the angles are kept (off the seam opposite the central meridian). -/
theorem C21_sphere (p : Sphere) (hr : 0 < p.r) (lon lat : ℝ) (h : |lat| < 90) (hs : cos (rad lon - p.lon0) ≠ -1) :
    ∃ k, Mercator.scale p lon lat = .ok k ∧ LocalScale (Mercator.geo2rect p) p.r p.r lon lat k k :=
  ⟨_, Mercator.scale_ok p lon h, Mercator.local_scale p hr h hs⟩

/-- C21: the same on the ellipsoid, with its radii of curvature along and across the meridian. -/
theorem C21_ellipsoid (p : Spheroid) (ha : 0 < p.ell.a) (h0 : 0 ≤ p.ell.e) (h1 : p.ell.e < 1) (lon lat : ℝ) (h : |lat| < 90)
    (hs : cos (rad lon - p.lon0) ≠ -1) :
    let W := √((1 - p.ell.e * sin (rad lat)) * (1 + p.ell.e * sin (rad lat)))
    ∃ k, EMercator.scale p lon lat = .ok k ∧
      LocalScale (EMercator.geo2rect p) (p.ell.a * (1 - p.ell.e ^ 2) / W ^ 3) (p.ell.a / W) lon lat k k :=
  ⟨_, EMercator.scale_ok p h0 h1 lon h, EMercator.local_scale p ha h0 h1 h hs rfl⟩

/-- The default ellipsoid meets the hypotheses. -/
theorem wgs84_ok : 0 < wgs84.a ∧ 0 ≤ wgs84.e ∧ wgs84.e < 1 := by
  refine ⟨by norm_num [wgs84], sqrt_nonneg _, ?_⟩
  simp only [wgs84]
  rw [sqrt_lt' one_pos]
  norm_num

example : ∃ k, Mercator.scale unit 10 45 = .ok k ∧ LocalScale (Mercator.geo2rect unit) 1 1 10 45 k k :=
  C21_sphere unit one_pos 10 45 (by norm_num) (by
    have hp := pi_pos
    have : 0 < cos (rad 10 - unit.lon0) := cos_pos_of_mem_Ioo ⟨by simp only [unit, rad]; linarith, by simp only [unit, rad]; linarith⟩
    linarith)

/-! ## C22: transverse Mercator -/

/-- C22: a position that `geo2rect` accepts comes back. -/
theorem C22_back (p : Sphere) (hr : p.r ≠ 0) (lon lat x y : ℝ) (h : |lat| < 90) (hg : TransMercator.geo2rect p lon lat = .ok (x, y)) :
    ∃ k : ℤ, TransMercator.rect2geo p x y = .ok (lon + 360 * k, lat) := by
  have hb : |cos (rad lat) * sin (rad lon - p.lon0)| < 1 := by
    refine lt_of_le_of_ne ?_ fun e => ?_
    · rw [abs_mul]
      exact mul_le_one₀ (abs_cos_le_one _) (abs_nonneg _) (abs_sin_le_one _)
    · have : cos (rad lat) * sin (rad lon - p.lon0) = -1 ∨ cos (rad lat) * sin (rad lon - p.lon0) = 1 := by
        rcases abs_eq zero_le_one |>.mp e with h | h
        · exact .inr h
        · exact .inl h
      rw [TransMercator.geo2rect, if_pos this] at hg
      cases hg
  obtain ⟨x', y', h1, h2⟩ := TransMercator.back p hr lon h hb
  rw [h1] at hg
  cases hg
  exact h2

/-- C22: between the poles only the two points of the equator a quarter away from the central meridian are refused, with `ProjectionError`. -/
theorem C22_accepts (p : Sphere) (hr : p.r ≠ 0) (lon lat : ℝ) (h : |lat| < 90) :
    (TransMercator.geo2rect p lon lat = .error .projectionError ↔ lat = 0 ∧ cos (rad lon - p.lon0) = 0) ∧
      (¬ (lat = 0 ∧ cos (rad lon - p.lon0) = 0) → ∃ x y, TransMercator.geo2rect p lon lat = .ok (x, y)) := by
  have hc := cos_rad_pos h
  obtain ⟨l1, l2⟩ := rad_bounds h
  have hp := pi_pos
  have key : (cos (rad lat) * sin (rad lon - p.lon0) = -1 ∨ cos (rad lat) * sin (rad lon - p.lon0) = 1) ↔ lat = 0 ∧ cos (rad lon - p.lon0) = 0 := by
    have h1 := sin_sq_add_cos_sq (rad lat)
    have h2 := sin_sq_add_cos_sq (rad lon - p.lon0)
    have h3 : 1 - (cos (rad lat) * sin (rad lon - p.lon0)) ^ 2 = sin (rad lat) ^ 2 + (cos (rad lat) * cos (rad lon - p.lon0)) ^ 2 := by
      linear_combination -h1 - cos (rad lat) ^ 2 * h2
    constructor
    · intro hb
      have hb2 : (cos (rad lat) * sin (rad lon - p.lon0)) ^ 2 = 1 := by
        rcases hb with e | e <;> rw [e] <;> norm_num
      rw [hb2, sub_self] at h3
      have e1 : sin (rad lat) ^ 2 = 0 := by nlinarith [sq_nonneg (sin (rad lat)), sq_nonneg (cos (rad lat) * cos (rad lon - p.lon0))]
      have e2 : (cos (rad lat) * cos (rad lon - p.lon0)) ^ 2 = 0 := by linarith
      refine ⟨?_, (mul_eq_zero.mp (pow_eq_zero_iff two_ne_zero |>.mp e2)).resolve_left hc.ne'⟩
      have e3 := (sin_eq_zero_iff_of_lt_of_lt (by linarith) (by linarith)).mp (pow_eq_zero_iff two_ne_zero |>.mp e1)
      rw [← deg_rad lat, e3]
      simp [deg]
    · rintro ⟨rfl, e⟩
      rw [e] at h2
      rw [rad_zero, cos_zero, one_mul]
      have : (sin (rad lon - p.lon0) + 1) * (sin (rad lon - p.lon0) - 1) = 0 := by linarith
      rcases mul_eq_zero.mp this with f | f
      · exact .inl (by linarith)
      · exact .inr (by linarith)
  have hok : ¬ (lat = 0 ∧ cos (rad lon - p.lon0) = 0) → ∃ x y, TransMercator.geo2rect p lon lat = .ok (x, y) := by
    intro hn
    rw [← key, not_or] at hn
    have hb : |cos (rad lat) * sin (rad lon - p.lon0)| < 1 := by
      refine lt_of_le_of_ne ?_ fun e => ?_
      · rw [abs_mul]
        exact mul_le_one₀ (abs_cos_le_one _) (abs_nonneg _) (abs_sin_le_one _)
      · rcases abs_eq zero_le_one |>.mp e with f | f
        · exact hn.2 f
        · exact hn.1 f
    obtain ⟨x, y, h', _⟩ := TransMercator.back p hr lon h hb
    exact ⟨x, y, h'⟩
  refine ⟨⟨fun he => ?_, fun hz => if_pos (key.mpr hz)⟩, hok⟩
  by_contra hn
  obtain ⟨x, y, hx⟩ := hok hn
  rw [hx] at he
  cases he

/-- Far beyond the central meridian. -/
example : ∃ x y, TransMercator.geo2rect unit 170 45 = .ok (x, y) :=
  (C22_accepts unit one_ne_zero 170 45 (by norm_num)).2 (by norm_num)

/-! ## C23: Albers -/

/-- C23: with standard parallels that are not opposite, a position comes back (at a pole, its latitude). -/
theorem C23_back (lat1 lat2 r lon lat : ℝ) (hr : 0 < r) (hn : sin (rad lat1) + sin (rad lat2) ≠ 0) (h : |lat| ≤ 90)
    (ht : |(sin (rad lat1) + sin (rad lat2)) / 2 * lon| < 180) :
    ∃ q x y lon', Conic.new (some (lat1, lat2)) (some r) = .ok q ∧ Conic.geo2rect q lon lat = .ok (x, y) ∧
      Conic.rect2geo q x y = .ok (lon', lat) ∧ (|lat| < 90 → lon' = lon) :=
  Conic.back hr hn lon h ht

/-- C23: opposite parallels cannot be used; these include the default ones. -/
theorem C23_default (radius : Option ℝ) (lat1 : ℝ) :
    Conic.new (some (lat1, -lat1)) radius = .error .zeroDivisionError ∧ Conic.new none radius = .error .zeroDivisionError := by
  have key : ∀ lat1 : ℝ, Conic.new (some (lat1, -lat1)) radius = .error .zeroDivisionError := by
    intro lat1
    have e : rad (-lat1) = -rad lat1 := by
      simp only [rad]
      ring
    have hn : (sin (rad lat1) + sin (rad (-lat1))) / 2 = 0 := by
      rw [e, sin_neg]
      ring
    simp only [Conic.new, Option.getD_some, hn]
    rw [rsqrt_ok (by nlinarith [mul_self_nonneg (cos (rad lat1))])]
    change (rdiv _ 0 >>= _) = _
    rw [rdiv, if_pos rfl]
    rfl
  refine ⟨key lat1, ?_⟩
  have := key 0
  rw [neg_zero] at this
  exact this

/-- Parallels of the southern hemisphere. -/
example : ∃ q x y lon', Conic.new (some (-90, 0)) (some 1) = .ok q ∧ Conic.geo2rect q 100 (-30) = .ok (x, y) ∧
    Conic.rect2geo q x y = .ok (lon', -30) ∧ (|(-30 : ℝ)| < 90 → lon' = 100) := by
  have e : sin (rad (-90)) + sin (rad 0) = -1 := by
    rw [rad_neg_90, sin_neg, sin_pi_div_two, rad_zero, sin_zero, add_zero]
  refine C23_back (-90) 0 1 100 (-30) one_pos (by rw [e]; norm_num) (by norm_num) ?_
  rw [e, abs_lt]
  norm_num

/-! ## C24: azimuthal equidistant -/

/-- C24: a position that is neither the place of the centre nor opposite to it is drawn at its distance from the centre; so is the centre.
Missing from C24: the other coordinates of the place of the centre, see `C24_violated`. -/
theorem C24_distance_partial (lon0 lat0 r lon lat : ℝ) (hr : 0 ≤ r) (h : pos lon lat ≠ -pos lon0 lat0)
    (h' : pos lon lat = pos lon0 lat0 → lon = lon0 ∧ lat = lat0) :
    ∃ x y, AzimuthalEquidistant.geo2rect (Sphere.new (some (lon0, lat0)) (some r)) lon lat = .ok (x, y) ∧
      haversine lon0 lat0 lon lat (some r) = .ok (√(x ^ 2 + y ^ 2)) := by
  by_cases hp : pos lon lat = pos lon0 lat0
  · obtain ⟨rfl, rfl⟩ := h' hp
    refine ⟨0, 0, if_pos ⟨rfl, rfl⟩, ?_⟩
    rw [haversine_eq, arc_eq_zero.mpr rfl]
    simp
  · have ha : away (Sphere.new (some (lon0, lat0)) (some r)) lon lat = arc lon0 lat0 lon lat := away_arc _ _ _ _ _
    have h0 : arc lon0 lat0 lon lat ≠ 0 := fun e => hp (arc_eq_zero.mp e).symm
    have h1 : arc lon0 lat0 lon lat ≠ π := by
      intro e
      apply h
      have hi : inner ℝ (pos lon lat) (-pos lon0 lat0) = 1 := by
        rw [inner_neg_right, real_inner_comm, inner_pos, ← cos_arc, e, cos_pi]
        norm_num
      exact (inner_eq_one_iff_of_norm_eq_one (𝕜 := ℝ) (norm_pos _ _) (by rw [norm_neg, norm_pos])).mp hi
    have hs : 0 < sin (away (Sphere.new (some (lon0, lat0)) (some r)) lon lat) := by
      rw [ha]
      exact sin_pos_of_pos_of_lt_pi (lt_of_le_of_ne (arc_nonneg _ _ _ _) h0.symm) (lt_of_le_of_ne (arc_le_pi _ _ _ _) h1)
    refine ⟨_, _, AzimuthalEquidistant.fwd _ lon lat hs, ?_⟩
    have hk : 0 ≤ (Sphere.new (some (lon0, lat0)) (some r)).r *
        (away (Sphere.new (some (lon0, lat0)) (some r)) lon lat / sin (away (Sphere.new (some (lon0, lat0)) (some r)) lon lat)) :=
      mul_nonneg hr (div_nonneg (away_range _ lon lat).1 hs.le)
    rw [haversine_eq, sq, sq, plane_dist _ lon lat hk, mul_assoc, div_mul_cancel₀ _ hs.ne', ha]
    rfl

/-- C24 does not hold for the place of the centre under other coordinates: the projection divides by zero. -/
theorem C24_violated (lon0 lat0 r lon lat : ℝ) (h : pos lon lat = pos lon0 lat0) (hne : ¬ (lon = lon0 ∧ lat = lat0)) :
    AzimuthalEquidistant.geo2rect (Sphere.new (some (lon0, lat0)) (some r)) lon lat = .error .zeroDivisionError := by
  refine AzimuthalEquidistant.fwd_zero _ lon lat (.inl ?_) ?_
  · rw [cosDist_dot, ← inner_pos, h, real_inner_self_eq_norm_sq, norm_pos, one_pow]
  · rintro ⟨h1, h2⟩
    refine hne ⟨?_, ?_⟩
    · rw [← deg_rad lon, h1]
      exact deg_rad lon0
    · rw [← deg_rad lat, h2]
      exact deg_rad lat0

/-- The centre `(0, 0)` written as `(360, 0)`. -/
example : AzimuthalEquidistant.geo2rect (Sphere.new (some (0, 0)) (some 1)) 360 0 = .error .zeroDivisionError := by
  refine C24_violated 0 0 1 360 0 ?_ (by norm_num)
  have : rad 360 = 2 * π := by
    rw [rad]
    ring
  rw [pos_apply, pos_apply, this, cos_two_pi, sin_two_pi, rad_zero, cos_zero, sin_zero]

/-! ## C25: going back from the azimuthal projections -/

/-- The three azimuthal projections. -/
inductive Azimuthal
  | stereographic
  | equidistant
  | equalArea

noncomputable def Azimuthal.geo2rect : Azimuthal → Sphere → ℝ → ℝ → Py (ℝ × ℝ)
  | .stereographic => Stereographic.geo2rect
  | .equidistant => AzimuthalEquidistant.geo2rect
  | .equalArea => AzimuthalEqualArea.geo2rect

noncomputable def Azimuthal.rect2geo : Azimuthal → Sphere → ℝ → ℝ → Py (ℝ × ℝ)
  | .stereographic => Stereographic.rect2geo
  | .equidistant => AzimuthalEquidistant.rect2geo
  | .equalArea => AzimuthalEqualArea.rect2geo

/-- Away from the centre and its antipode, the images have one form. -/
theorem Azimuthal.both (a : Azimuthal) (p : Sphere) (hr : 0 < p.r) (lon lat : ℝ) (h1 : cosDist p lon lat ≠ 1) (h2 : cosDist p lon lat ≠ -1) :
    ∃ m, 0 < m ∧ a.geo2rect p lon lat = .ok (m * east p lon lat, m * north p lon lat) ∧
      a.rect2geo p (m * east p lon lat) (m * north p lon lat) =
        azimuthal p (m * east p lon lat) (m * north p lon lat) (m * sin (away p lon lat)) (away p lon lat) := by
  have hs := sin_away_pos h2 h1
  have hpos : 0 < 1 + cosDist p lon lat := by
    have := lt_of_le_of_ne (cosDist_range p lon lat).1 h2.symm
    linarith
  have haw : 0 < away p lon lat := by
    refine lt_of_le_of_ne (away_range p lon lat).1 fun e => ?_
    rw [← e, sin_zero] at hs
    exact lt_irrefl _ hs
  cases a with
  | stereographic => exact ⟨_, by positivity, Stereographic.fwd p lon lat h2, Stereographic.bwd p hr lon lat h2⟩
  | equidistant => exact ⟨_, by positivity, AzimuthalEquidistant.fwd p lon lat hs, AzimuthalEquidistant.bwd p hr lon lat hs⟩
  | equalArea => exact ⟨_, by positivity, AzimuthalEqualArea.fwd p lon lat h2, AzimuthalEqualArea.bwd p hr lon lat h2⟩

/-- C25 within a quarter turn of longitude from the central meridian: every position but the centre comes back.
Missing from C25: the other half of the sphere, its border, the centre; see the violations. -/
theorem C25_near_partial (a : Azimuthal) (p : Sphere) (hr : 0 < p.r) (lon lat : ℝ) (h : |lat| < 90) (hD : 0 < cos (rad lon - p.lon0))
    (h1 : cosDist p lon lat ≠ 1) (h2 : cosDist p lon lat ≠ -1) :
    ∃ x y, a.geo2rect p lon lat = .ok (x, y) ∧ ∃ k : ℤ, a.rect2geo p x y = .ok (lon + 360 * k, lat) := by
  obtain ⟨m, hm, hg, hb⟩ := a.both p hr lon lat h1 h2
  obtain ⟨k, hk⟩ := arctan_tan_near hD
  refine ⟨_, _, hg, k, ?_⟩
  rw [hb, azimuthal_eq p hm (sin_away_pos h2 h1) h hD.ne', hk, show p.lon0 + (rad lon - p.lon0 + 2 * π * k) = rad lon + 2 * π * k by ring,
    deg_turns_of rfl]

/-- C25 does not hold farther away: there the longitude comes back wrong by a half turn. -/
theorem C25_violated_far (a : Azimuthal) (p : Sphere) (hr : 0 < p.r) (lon lat : ℝ) (h : |lat| < 90) (hD : cos (rad lon - p.lon0) < 0)
    (h1 : cosDist p lon lat ≠ 1) (h2 : cosDist p lon lat ≠ -1) :
    ∃ x y, a.geo2rect p lon lat = .ok (x, y) ∧ ∃ k : ℤ, a.rect2geo p x y = .ok (lon + 180 + 360 * k, lat) := by
  obtain ⟨m, hm, hg, hb⟩ := a.both p hr lon lat h1 h2
  obtain ⟨k, hk⟩ := arctan_tan_far hD
  refine ⟨_, _, hg, k, ?_⟩
  have e : p.lon0 + (rad lon - p.lon0 + π + 2 * π * k) = rad (lon + 180) + 2 * π * k := by
    rw [rad_add, rad_180]
    ring
  rw [hb, azimuthal_eq p hm (sin_away_pos h2 h1) h hD.ne, hk, e, deg_turns_of rfl]

/-- C25 does not hold on the border between the halves: the inverse divides by zero. -/
theorem C25_violated_border (a : Azimuthal) (p : Sphere) (hr : 0 < p.r) (lon lat : ℝ) (hD : cos (rad lon - p.lon0) = 0)
    (h1 : cosDist p lon lat ≠ 1) (h2 : cosDist p lon lat ≠ -1) :
    ∃ x y, a.geo2rect p lon lat = .ok (x, y) ∧ a.rect2geo p x y = .error .zeroDivisionError := by
  obtain ⟨m, hm, hg, hb⟩ := a.both p hr lon lat h1 h2
  exact ⟨_, _, hg, by rw [hb, azimuthal_quarter p m lon lat hD]⟩

/-- C25 does not hold at the centre: it is drawn at the origin, and from there the inverse divides by zero. -/
theorem C25_violated_centre (a : Azimuthal) (p : Sphere) (hr : 0 < p.r) :
    a.geo2rect p (deg p.lon0) (deg p.lat0) = .ok (0, 0) ∧ a.rect2geo p 0 0 = .error .zeroDivisionError := by
  have hc : cosDist p (deg p.lon0) (deg p.lat0) = 1 := by
    rw [cosDist, rad_deg, rad_deg, sub_self, cos_zero, mul_one, ← sq, ← sq, sin_sq_add_cos_sq]
  have he : east p (deg p.lon0) (deg p.lat0) = 0 := by
    rw [east, rad_deg, rad_deg, sub_self, sin_zero, mul_zero]
  have hn : north p (deg p.lon0) (deg p.lat0) = 0 := by
    rw [north, rad_deg, rad_deg, sub_self, cos_zero]
    ring
  have hd : √((0 : ℝ) * 0 + 0 * 0) = 0 := by simp
  constructor
  · cases a with
    | stereographic =>
      rw [Azimuthal.geo2rect, Stereographic.fwd p _ _ (by rw [hc]; norm_num), he, hn, mul_zero]
    | equidistant => exact if_pos ⟨rad_deg _, rad_deg _⟩
    | equalArea =>
      rw [Azimuthal.geo2rect, AzimuthalEqualArea.fwd p _ _ (by rw [hc]; norm_num), he, hn, mul_zero]
  · cases a with
    | stereographic =>
      simp only [Azimuthal.rect2geo, Stereographic.rect2geo, hd]
      rw [rdiv_ok (by positivity)]
      exact azimuthal_origin p _
    | equidistant =>
      simp only [Azimuthal.rect2geo, AzimuthalEquidistant.rect2geo, hd]
      rw [rdiv_ok hr.ne']
      exact azimuthal_origin p _
    | equalArea =>
      simp only [Azimuthal.rect2geo, AzimuthalEqualArea.rect2geo, hd]
      rw [rdiv_ok (by positivity), zero_div]
      change (rasin 0 >>= _) = _
      rw [rasin_ok (by norm_num) (by norm_num)]
      exact azimuthal_origin p _

/-- A position on the central meridian, and one on the opposite meridian. -/
example (a : Azimuthal) : (∃ x y, a.geo2rect unit 0 45 = .ok (x, y) ∧ ∃ k : ℤ, a.rect2geo unit x y = .ok (0 + 360 * k, 45)) ∧
    ∃ x y, a.geo2rect unit 180 45 = .ok (x, y) ∧ ∃ k : ℤ, a.rect2geo unit x y = .ok (180 + 180 + 360 * k, 45) := by
  have hp := pi_pos
  have c1 : cosDist unit 0 45 = cos (π / 4) := by simp [cosDist, unit, rad_zero, rad_45]
  have c2 : cosDist unit 180 45 = -cos (π / 4) := by simp [cosDist, unit, rad_180, rad_45]
  have b1 : 0 < cos (π / 4) := cos_pos_of_mem_Ioo ⟨by linarith, by linarith⟩
  have b2 : cos (π / 4) < 1 := by
    rw [← cos_zero]
    exact cos_lt_cos_of_nonneg_of_le_pi_div_two le_rfl (by linarith) (by linarith)
  refine ⟨C25_near_partial a unit one_pos 0 45 (by norm_num) ?_ ?_ ?_, C25_violated_far a unit one_pos 180 45 (by norm_num) ?_ ?_ ?_⟩
  · simp [unit, rad_zero]
  · rw [c1]
    exact b2.ne
  · rw [c1]
    linarith
  · simp [unit, rad_180]
  · rw [c2]
    linarith
  · rw [c2]
    linarith

/-! ## C26: Mercator on the ellipsoid -/

/-- C26: if `rect2geo` returns a position, projecting that position gives exactly the point asked for. -/
theorem C26_exact (p : Spheroid) (ha : 0 < p.ell.a) (h0 : 0 ≤ p.ell.e) (h1 : p.ell.e < 1) (x y lon lat : ℝ) (hx : |x| < π * p.ell.a)
    (h : EMercator.Rect2geo p x y (.ok (lon, lat))) : |lat| < 90 ∧ EMercator.geo2rect p lon lat = .ok (x, y) :=
  EMercator.forth p ha h0 h1 hx h

/-- The loop ends at once on the equator. -/
example : EMercator.Rect2geo { lon0 := 0, lat0 := 0, ell := wgs84 } 0 0 (.ok (deg (corangle (0 / wgs84.a + 0)), deg 0)) := by
  refine .ok wgs84_ok.1.ne' ?_
  have e0 : exp (-0 / wgs84.a) = 1 := by simp
  have e1 : π / 2 - 2 * arctan 1 = 0 := by
    rw [arctan_one]
    ring
  have e2 : EMercator.improve wgs84.e 1 0 = 0 := by
    rw [EMercator.improve, EMercator.factor, sin_zero, mul_zero, sub_zero, add_zero, div_one, one_rpow, mul_one, e1]
  simp only [EMercator.Loop, e0, e1]
  refine .step rfl ?_
  simp only [e2]
  exact .done (by simp)

/-! ## C27: the inverse of Eckert IV -/

/-- C27: `rect2geo` of the exact image of a position is that position. -/
theorem C27_exact (p : Sphere) (hr : p.r ≠ 0) (lon lat x y : ℝ) (h : |lat| ≤ 90) (hi : EckertImage p.r (rad lon - p.lon0) (rad lat) x y) :
    EckertIV.rect2geo p x y = .ok (lon, lat) := by
  obtain ⟨θ, h1, h2, hG, rfl, rfl⟩ := hi
  obtain ⟨l1, l2⟩ := rad_bounds_le h
  have hq : EckertIV.G θ / EckertIV.C = sin (rad lat) := by
    rw [EckertIV.G, hG, EckertIV.C, mul_div_cancel_left₀]
    exact EckertIV.C_pos.ne'
  refine (EckertIV.rect2geo_eq p hr (rad lon - p.lon0) h1 h2).trans ?_
  rw [hq, arcsin_sin l1 l2, add_sub_cancel, deg_rad, deg_rad]

/-- C27: every latitude has exactly one image. -/
theorem C27_image (r dlon φ : ℝ) : ∃! q : ℝ × ℝ, EckertImage r dlon φ q.1 q.2 := by
  obtain ⟨θ, h1, h2, hG⟩ := EckertIV.G_solve (σ := sin φ) (neg_one_le_sin _) (sin_le_one _)
  refine ⟨(_, _), ⟨θ, h1, h2, hG, rfl, rfl⟩, ?_⟩
  rintro ⟨x, y⟩ ⟨θ', h1', h2', hG', hx, hy⟩
  have : θ' = θ := EckertIV.G_mono.injOn ⟨h1', h2'⟩ ⟨h1, h2⟩ (by rw [hG]; exact hG')
  subst this
  exact Prod.ext hx hy

/-- The equator. -/
example : EckertImage 1 (rad 60 - 0) (rad 0) (2 / √(4 * π + π * π) * 1 * (rad 60 - 0) * (1 + cos 0)) 0 :=
  ⟨0, by linarith [pi_pos], by linarith [pi_pos], by simp [rad_zero], rfl, by simp⟩

/-! ## C102: the iteration of Eckert IV -/

/-- C102: `geo2rect` ends, for every latitude. -/
theorem C102_terminates (p : Sphere) (lon lat : ℝ) (h : |lat| ≤ 90) : ∃! res, EckertIV.Geo2rect p lon lat res := by
  obtain ⟨l1, l2⟩ := rad_bounds_le h
  obtain ⟨s, θ, hs, _⟩ := EckertIV.loop_exists l1 l2
  refine ⟨_, .ok hs, ?_⟩
  rintro _ (⟨hs'⟩ | ⟨he⟩)
  · rename_i s'
    have : s' = s := Except.ok.inj (hs'.det hs)
    rw [this]
  · have := he.det hs
    cases this

/-- C102: it returns the exact image of a position with the right longitude and almost the right latitude. -/
theorem C102_accurate (p : Sphere) (hr : p.r ≠ 0) (lon lat : ℝ) (h : |lat| ≤ 90) (res : Py (ℝ × ℝ)) (hres : EckertIV.Geo2rect p lon lat res) :
    ∃ x y lat', ∃ k : ℤ, res = .ok (x, y) ∧ |lat'| ≤ 90 ∧ |lon + 360 * k - deg p.lon0| ≤ 180 ∧ |sin (rad lat') - sin (rad lat)| < 1.2e-6 ∧
      EckertImage p.r (rad (lon + 360 * k) - p.lon0) (rad lat') x y ∧ EckertIV.rect2geo p x y = .ok (lon + 360 * k, lat') := by
  obtain ⟨l1, l2⟩ := rad_bounds_le h
  obtain ⟨s, θ, hs, hc, hsn, h1, h2, hG⟩ := EckertIV.loop_exists l1 l2
  have hu := (C102_terminates p lon lat h).unique hres (.ok hs)
  subst hu
  obtain ⟨k, hk⟩ := corangle_turns (rad lon - p.lon0)
  obtain ⟨r1, r2⟩ := corangle_range (rad lon - p.lon0)
  obtain ⟨g1, g2⟩ := EckertIV.G_range h1 h2
  have hC := EckertIV.C_pos
  have hlat : |deg (arcsin (EckertIV.G θ / EckertIV.C))| ≤ 90 := by
    rw [abs_le, ← deg_rad 90, ← deg_neg, deg_le, deg_le, rad_90]
    exact ⟨neg_pi_div_two_le_arcsin _, arcsin_le_pi_div_two _⟩
  have hd : corangle (rad lon - p.lon0) = rad (lon + 360 * k) - p.lon0 := by
    rw [hk, rad_add, ← deg_turns, rad_deg]
    ring
  have himg : EckertImage p.r (rad (lon + 360 * k) - p.lon0) (rad (deg (arcsin (EckertIV.G θ / EckertIV.C))))
      (EckertIV.CX * p.r * corangle (rad lon - p.lon0) * (1 + s.costheta)) (EckertIV.CY * p.r * s.sintheta) := by
    refine ⟨θ, h1, h2, ?_, ?_, ?_⟩
    · rw [rad_deg, sin_arcsin g1 g2]
      exact (mul_div_cancel₀ (EckertIV.G θ) hC.ne').symm
    · rw [hc, hd]
      rfl
    · rw [hsn]
      rfl
  refine ⟨_, _, deg (arcsin (EckertIV.G θ / EckertIV.C)), k, rfl, hlat, ?_, ?_, himg, C27_exact p hr _ _ _ _ hlat himg⟩
  · have e : lon + 360 * k - deg p.lon0 = deg (corangle (rad lon - p.lon0)) := by
      rw [hd, sub_eq_add_neg, sub_eq_add_neg, deg_add, deg_rad, deg_neg]
    rw [e, abs_le, ← deg_pi, ← deg_neg, deg_le, deg_le]
    exact ⟨r1, r2⟩
  · rw [rad_deg, sin_arcsin g1 g2]
    have e : EckertIV.G θ / EckertIV.C - sin (rad lat) = (EckertIV.G θ - EckertIV.C * sin (rad lat)) / EckertIV.C := by
      field_simp
    have hpi := pi_gt_three
    have hC3 : (3.5 : ℝ) < EckertIV.C := by
      rw [EckertIV.C]
      linarith
    rw [e, abs_div, abs_of_pos hC, div_lt_iff₀ hC]
    calc |EckertIV.G θ - EckertIV.C * sin (rad lat)| ≤ 4e-6 := hG
      _ < 1.2e-6 * 3.5 := by norm_num
      _ < 1.2e-6 * EckertIV.C := mul_lt_mul_of_pos_left hC3 (by norm_num)

/-- The north pole. -/
example : ∃! res, EckertIV.Geo2rect unit 0 90 res := C102_terminates unit 0 90 (by norm_num)

/-! ## C28: oblique Mercator -/

/-- C28 within a quarter turn of longitude from the centre: a position comes back. Missing from C28: the other half of the sphere and the border. -/
theorem C28_near_partial (p : Sphere) (hr : p.r ≠ 0) (lon lat : ℝ) (h : |lat| < 90) (hD : 0 < cos (rad lon - p.lon0)) :
    ∃ x y, ObliqMercator.geo2rect p lon lat = .ok (x, y) ∧ ∃ k : ℤ, ObliqMercator.rect2geo p x y = .ok (lon + 360 * k, lat) :=
  ObliqMercator.back p hr lon h hD

/-- C28 does not hold on the other half: with the default centre, positions opposite to the central meridian come back with the wrong sign of the
latitude, on the central meridian. -/
theorem C28_violated_far (r lat : ℝ) (hr : r ≠ 0) (h : |lat| < 90) :
    ∃ x y, ObliqMercator.geo2rect (Sphere.new none (some r)) 180 lat = .ok (x, y) ∧
      ObliqMercator.rect2geo (Sphere.new none (some r)) x y = .ok (0, -lat) := by
  obtain ⟨l1, l2⟩ := rad_bounds h
  have hc := cos_rad_pos h
  have hp : Sphere.new none (some r) = { lon0 := 0, lat0 := 0, r := r } := by simp [Sphere.new, rad_zero]
  obtain ⟨_, _, hg⟩ := ObliqMercator.geo2rect_eq { lon0 := 0, lat0 := 0, r := r } 180 h (by simp [rad_180])
  simp only [rad_180, sin_zero, cos_zero, sub_zero, sin_pi, cos_pi, mul_zero, zero_mul, mul_one, add_zero] at hg
  have e : sin (rad lat) / (cos (rad lat) * -1) = tan (-rad lat) := by
    rw [tan_neg, tan_eq_sin_div_cos]
    field_simp
  rw [e, arctan_tan (by linarith) (by linarith), artanh_zero, mul_zero] at hg
  rw [hp]
  refine ⟨_, _, hg, ?_⟩
  simp only [ObliqMercator.rect2geo]
  rw [rdiv_ok hr, rdiv_ok hr, mul_div_cancel_left₀ _ hr, zero_div]
  change (rdiv _ (cosh 0) >>= _) = _
  rw [cosh_zero, rdiv_ok one_ne_zero]
  change (rasin (sin 0 * tanh 0 + cos 0 * sin (-rad lat) / 1) >>= _) = _
  rw [sin_zero, zero_mul, zero_add, cos_zero, one_mul, div_one, rasin_sin (by linarith) (by linarith)]
  change (rdiv (0 * sin (-rad lat) - 1 * sinh 0) (cos (-rad lat)) >>= _) = _
  rw [sinh_zero, zero_mul, mul_zero, sub_zero, cos_neg, rdiv_ok hc.ne', zero_div]
  change Except.ok (deg (0 + arctan 0), deg (-rad lat)) = _
  rw [arctan_zero, add_zero, deg_neg, deg_rad]
  simp [deg]

/-- C28 does not hold on the border: the projection divides by zero. -/
theorem C28_violated_border (p : Sphere) (lon lat : ℝ) (h : |lat| < 90) (hD : cos (rad lon - p.lon0) = 0) :
    ObliqMercator.geo2rect p lon lat = .error .zeroDivisionError := by
  rw [ObliqMercator.geo2rect, rtan_ok (cos_rad_pos h).ne']
  change (rdiv _ _ >>= _) = _
  rw [hD, rdiv, if_pos rfl]
  rfl

example : ∃ x y, ObliqMercator.geo2rect unit 0 45 = .ok (x, y) ∧ ∃ k : ℤ, ObliqMercator.rect2geo unit x y = .ok (0 + 360 * k, 45) :=
  C28_near_partial unit one_ne_zero 0 45 (by norm_num) (by simp [unit, rad_zero])

/-! ## C103: Albers keeps areas -/

/-- C103: `scale` is the stretch along the meridians, its reciprocal the stretch along the parallels, and these stay perpendicular. -/
theorem C103_scale (lat1 lat2 r lon lat : ℝ) (hr : 0 < r) (hn : sin (rad lat1) + sin (rad lat2) ≠ 0) (h : |lat| < 90) :
    ∃ q k, Conic.new (some (lat1, lat2)) (some r) = .ok q ∧ Conic.scale q lon lat = .ok k ∧ 0 < k ∧
      LocalScale (Conic.geo2rect q) r r lon lat k (1 / k) := by
  have hc := cos_rad_pos h
  have hw := (Conic.radicand (sin (rad lat1)) (sin (rad lat2)) (sin (rad lat)) ⟨neg_one_le_sin _, sin_le_one _⟩
    ⟨neg_one_le_sin _, sin_le_one _⟩ hn).2 ⟨by linarith [one_add_sin_pos hc], by linarith [one_sub_sin_pos hc]⟩
  have hw' : 0 < 1 + sin (rad lat1) * sin (rad lat2) - 2 * ((sin (rad lat1) + sin (rad lat2)) / 2) * sin (rad lat) := by
    rw [mul_div_cancel₀ _ two_ne_zero]
    exact hw
  refine ⟨_, _, Conic.new_eq lat1 lat2 (some r) hn, Conic.scale_ok _ lon lat hw', div_pos hc (sqrt_pos.mpr hw'), ?_⟩
  rw [one_div_div]
  exact Conic.local_scale _ hr (div_ne_zero hn two_ne_zero) h hw'

/-- C103: on a standard parallel there is no stretch. -/
theorem C103_standard (lat1 lat2 r lon : ℝ) (hn : sin (rad lat1) + sin (rad lat2) ≠ 0) (h : |lat1| < 90) :
    ∃ q, Conic.new (some (lat1, lat2)) (some r) = .ok q ∧ Conic.scale q lon lat1 = .ok 1 := by
  have hc := cos_rad_pos h
  have e : 1 + sin (rad lat1) * sin (rad lat2) - 2 * ((sin (rad lat1) + sin (rad lat2)) / 2) * sin (rad lat1) = cos (rad lat1) ^ 2 := by
    linear_combination -sin_sq_add_cos_sq (rad lat1)
  refine ⟨_, Conic.new_eq lat1 lat2 (some r) hn, ?_⟩
  rw [Conic.scale_ok _ lon lat1 (by simp only; rw [e]; positivity)]
  simp only
  rw [e, sqrt_sq hc.le, div_self hc.ne']

/-- Parallels at the equator and the north pole. -/
example : sin (rad 0) + sin (rad 90) ≠ 0 := by
  rw [rad_zero, sin_zero, rad_90, sin_pi_div_two]
  norm_num

end Proj
end Coral
