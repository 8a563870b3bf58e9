import Verif.Props.Centroid
import Mathlib.Analysis.SpecialFunctions.Trigonometric.Bounds

/-!
# `geocentroid` can return a place on the wrong side of the earth, or never end: C116
-/
namespace Coral
namespace Geoc
open Real Proj

/-! ### The wrong side -/

/-- C116 fails across a pole: for a triangle that lies between the longitudes 90 and 270, the search started at longitude 0 near the pole ends at once and returns a
place at longitude 0. Drawn from there the centroid is where longitude 180, a half turn away, is drawn; the returned place itself is drawn at the origin. -/
theorem C116_far_side_violated : ∃ φ : ℝ, (0 < φ ∧ φ < 90) ∧ ∃ polys c,
    (∀ epsilon : Option ℝ, (∀ e ∈ epsilon, 0 ≤ e) → Geocentroid [[(90, 0), (180, 120 - φ), (-90, 0)]] (some ⟨-1, φ - 1, 1, φ + 1⟩) epsilon (.ok (0, φ))) ∧
    List.Forall₂ (List.Forall₂ fun p xy => AzimuthalEqualArea.geo2rect (Sphere.new (some (0, φ)) none) p.1 p.2 = .ok xy) [[(90, 0), (180, 120 - φ), (-90, 0)]] polys ∧
    IsCentroid polys c ∧ c ≠ (0, 0) ∧ AzimuthalEqualArea.geo2rect (Sphere.new (some (0, φ)) none) 180 φ = .ok c ∧
    AzimuthalEqualArea.geo2rect (Sphere.new (some (0, φ)) none) 0 φ = .ok (0, 0) := by
  have hpi := pi_pos
  set θ := arcsin (1 / 6) with hθ
  have sθ : sin θ = 1 / 6 := sin_arcsin (by norm_num) (by norm_num)
  have θ0 : 0 < θ := arcsin_pos.mpr (by norm_num)
  have θ1 : θ < π / 6 := by
    rw [hθ, arcsin_lt_iff_lt_sin ⟨by norm_num, by norm_num⟩ ⟨by linarith, by linarith⟩, sin_pi_div_six]
    norm_num
  have cθ : 0 < cos θ := cos_pos_of_mem_Ioo ⟨by linarith, by linarith⟩
  set φ := deg (π / 2 - θ) with hφ
  have rφ : rad φ = π / 2 - θ := rad_deg _
  have r0 : rad 0 = 0 := by simp [rad]
  set p := Sphere.new (some ((0 : ℝ), φ)) none with hp
  have p1 : p.lon0 = 0 := by simp [hp, Sphere.new, rad]
  have p2 : p.lat0 = π / 2 - θ := by rw [← rφ]; rfl
  have hr : 0 < p.r := by norm_num [hp, Sphere.new, wgs84]
  have hs : sin p.lat0 = cos θ := by rw [p2, sin_pi_div_two_sub]
  have hc : cos p.lat0 = 1 / 6 := by rw [p2, cos_pi_div_two_sub, sθ]
  -- where the corners are drawn
  have gA : AzimuthalEqualArea.geo2rect p 90 0 = .ok (p.r * √2, 0) := by
    rw [AzimuthalEqualArea.fwd p _ _ (by simp [cosDist, p1, r0, rad_90])]
    simp [cosDist, east, north, p1, r0, rad_90]
  have gB : AzimuthalEqualArea.geo2rect p (-90) 0 = .ok (-(p.r * √2), 0) := by
    rw [AzimuthalEqualArea.fwd p _ _ (by simp [cosDist, p1, r0, rad_neg_90])]
    simp [cosDist, east, north, p1, r0, rad_neg_90]
  have across : ∀ lat, cos (p.lat0 + rad lat) ≠ 1 → AzimuthalEqualArea.geo2rect p 180 lat = .ok (0, p.r * √(2 / (1 - cos (p.lat0 + rad lat))) * sin (p.lat0 + rad lat)) := by
    intro lat hne
    have e : cosDist p 180 lat = -cos (p.lat0 + rad lat) := by
      simp only [cosDist, p1, rad_180, sub_zero, cos_pi, cos_add]; ring
    rw [AzimuthalEqualArea.fwd p _ _ (by rw [e]; intro h; exact hne (by linarith)), e]
    congr 2
    · simp [east, p1, rad_180]
    · rw [← sub_eq_add_neg]
      congr 1
      simp only [north, p1, rad_180, sub_zero, cos_pi, sin_add]; ring
  have rD : p.lat0 + rad (120 - φ) = 2 * π / 3 := by
    rw [rad_sub, rφ, p2, show rad 120 = 2 * π / 3 by unfold rad; ring]; ring
  have c23 : cos (2 * π / 3) = -(1 / 2) := by
    rw [show 2 * π / 3 = π - π / 3 by ring, cos_pi_sub, cos_pi_div_three]
  have s23 : sin (2 * π / 3) = √3 / 2 := by
    rw [show 2 * π / 3 = π - π / 3 by ring, sin_pi_sub, sin_pi_div_three]
  have gD : AzimuthalEqualArea.geo2rect p 180 (120 - φ) = .ok (0, p.r) := by
    rw [across _ (by rw [rD, c23]; norm_num), rD, c23, s23]
    congr 2
    have : √(2 / (1 - -(1 / 2))) * (√3 / 2) = 1 := by
      rw [← mul_div_assoc, ← sqrt_mul (by norm_num), show (2 : ℝ) / (1 - -(1 / 2)) * 3 = 2 ^ 2 by norm_num, sqrt_sq (by norm_num)]
      norm_num
    rw [mul_assoc, this, mul_one]
  have s2 : 0 < √(2 : ℝ) := by positivity
  have hcen : IsCentroid [[(p.r * √2, 0), (0, p.r), (-(p.r * √2), 0)]] (0, p.r / 3) := by
    have := IsCentroid.triangle (a := (p.r * √2, 0)) (b := (0, p.r)) (c := (-(p.r * √2), 0)) (by
      simp only [triArea]
      have := mul_pos (mul_pos hr s2) hr
      intro e
      nlinarith)
    simpa using this
  have gc : AzimuthalEqualArea.geo2rect p 180 φ = .ok (0, p.r / 3) := by
    have e : p.lat0 + rad φ = π - 2 * θ := by rw [rφ, p2]; ring
    have e2 : cos (2 * θ) = 1 - 2 * (1 / 6) ^ 2 := by
      have := sin_sq_add_cos_sq θ
      rw [cos_two_mul]
      rw [sθ] at this
      linarith
    rw [across _ (by rw [e, cos_pi_sub, e2]; norm_num), e, cos_pi_sub, sin_pi_sub, sin_two_mul, sθ, e2]
    have hq : √(2 / (1 - -(1 - 2 * (1 / 6) ^ 2))) = (cos θ)⁻¹ := by
      have := sin_sq_add_cos_sq θ
      rw [sθ] at this
      have h2 : (2 : ℝ) / (1 - -(1 - 2 * (1 / 6) ^ 2)) = ((cos θ)⁻¹) ^ 2 := by
        rw [inv_pow, eq_comm, inv_eq_iff_eq_inv]
        rw [show cos θ ^ 2 = 1 - (1 / 6) ^ 2 by linarith]
        norm_num
      rw [h2, sqrt_sq (by positivity)]
    rw [hq]
    congr 2
    field_simp
    norm_num
  have g0 : AzimuthalEqualArea.geo2rect p 0 φ = .ok (0, 0) := by
    have e : cosDist p 0 φ = 1 := by
      have := sin_sq_add_cos_sq p.lat0
      simp only [cosDist, p1, r0, sub_zero, cos_zero, show rad φ = p.lat0 by rw [p2, rφ]]
      linarith
    rw [AzimuthalEqualArea.fwd p _ _ (by rw [e]; norm_num), e]
    simp only [east, north, p1, r0, sub_zero, sin_zero, cos_zero, show rad φ = p.lat0 by rw [p2, rφ]]
    congr 2 <;> ring
  have hround : round [[(90, 0), (180, 120 - φ), (-90, 0)]] (0, φ) = .ok (0, φ) := by
    have hin : ([(90, 0), (180, 120 - φ), (-90, 0)] : List (ℝ × ℝ)).mapM (fun q : ℝ × ℝ => AzimuthalEqualArea.geo2rect p q.1 q.2) =
        .ok [(p.r * √2, 0), (0, p.r), (-(p.r * √2), 0)] := by
      simp only [List.mapM_cons, gA, gB, gD, List.mapM_nil]
      rfl
    have hW : 2 * (p.r * √2 * p.r) ≠ 0 := by positivity
    have hpc : polyCentroid [(p.r * √2, 0), (0, p.r), (-(p.r * √2), 0)] = .ok ((0, p.r / 3), 2 * (p.r * √2 * p.r)) := by
      have hs : sideSums [(p.r * √2, 0), (0, p.r), (-(p.r * √2), 0)] = (0, p.r / 3 * (3 * (2 * (p.r * √2 * p.r))), 2 * (p.r * √2 * p.r)) := by
        simp [sideSums]
        refine ⟨by ring, by ring⟩
      have hne : (3 : ℝ) * (2 * (p.r * √2 * p.r)) ≠ 0 := by positivity
      simp only [polyCentroid, hs, rdiv_ok hne, zero_div, mul_div_assoc, div_self hne, mul_one]
      rfl
    have hw : weighted [((0, p.r / 3), 2 * (p.r * √2 * p.r))] = .ok (0, p.r / 3) := by
      rw [weighted_ok]
      simp only [List.map_cons, List.map_nil, List.sum_cons, List.sum_nil, add_zero]
      exact ⟨hW, by simp, by rw [mul_div_assoc, div_self hW, mul_one]⟩
    unfold round
    change (List.mapM _ _ >>= _) = _
    rw [List.mapM_cons, hin]
    change ((polyCentroid _ >>= _) >>= _) = _
    rw [hpc]
    change (weighted [((0, p.r / 3), 2 * (p.r * √2 * p.r))] >>= _) = _
    rw [hw]
    change AzimuthalEqualArea.rect2geo p 0 (p.r / 3) = _
    have hd : √(0 * 0 + p.r / 3 * (p.r / 3)) = p.r / 3 := by rw [mul_zero, zero_add, sqrt_mul_self (by positivity)]
    simp only [AzimuthalEqualArea.rect2geo, hd]
    rw [rdiv_ok (by positivity), show p.r / 3 / (2 * p.r) = 1 / 6 by field_simp; norm_num]
    change (rasin _ >>= _) = _
    rw [rasin_ok (by norm_num) (by norm_num), ← hθ]
    change azimuthal _ _ _ _ _ = _
    simp only [azimuthal, azimuthalQuot]
    rw [if_neg (by rw [p2]; linarith), if_neg (by rw [p2]; linarith)]
    have hden : p.r / 3 * cos p.lat0 * cos (2 * θ) - p.r / 3 * sin p.lat0 * sin (2 * θ) = -(p.r / 3 * (1 / 6)) := by
      have : cos p.lat0 * cos (2 * θ) - sin p.lat0 * sin (2 * θ) = -(1 / 6) := by
        rw [← cos_add, p2, show π / 2 - θ + 2 * θ = θ + π / 2 by ring, cos_add_pi_div_two, sθ]
      linear_combination p.r / 3 * this
    rw [hden, rdiv_ok (by rw [neg_ne_zero]; positivity), rdiv_ok (by positivity), zero_mul, zero_div]
    change (rasin _ >>= _) = _
    have hlat : cos (2 * θ) * sin p.lat0 + p.r / 3 * sin (2 * θ) * cos p.lat0 / (p.r / 3) = sin (π / 2 - θ) := by
      have : p.r / 3 * sin (2 * θ) * cos p.lat0 / (p.r / 3) = sin (2 * θ) * cos p.lat0 := by field_simp
      rw [this, show cos (2 * θ) * sin p.lat0 + sin (2 * θ) * cos p.lat0 = sin (2 * θ + p.lat0) by rw [sin_add]; ring, p2,
        show 2 * θ + (π / 2 - θ) = θ + π / 2 by ring, sin_add_pi_div_two, sin_pi_div_two_sub]
    rw [hlat, rasin_ok (neg_one_le_sin _) (sin_le_one _), arcsin_sin (by linarith) (by linarith)]
    change Except.ok (deg (p.lon0 + arctan 0), φ) = _
    rw [p1, arctan_zero, add_zero, show deg 0 = 0 by simp [deg]]
  refine ⟨φ, ⟨?_, ?_⟩, [[(p.r * √2, 0), (0, p.r), (-(p.r * √2), 0)]], (0, p.r / 3), ?_, ?_, hcen, ?_, gc, g0⟩
  · rw [← rad_lt, rφ, r0]; linarith
  · rw [← rad_lt, rφ, rad_90]; linarith
  · intro epsilon he
    refine .given rfl ?_
    have hcent : (⟨-1, φ - 1, 1, φ + 1⟩ : BBox ℝ).center = (0, φ) := by simp [BBox.center]
    rw [hcent]
    have h0 : 0 ≤ epsilon.getD 1e-10 := by
      cases epsilon with
      | none => norm_num
      | some e => exact he e rfl
    exact .stop hround (by simpa using h0)
  · exact .cons (.cons gA (.cons gD (.cons gB .nil))) .nil
  · intro h
    have := (Prod.mk.inj h).2
    linarith

/-! ### Never ending -/

/-- A place on the equator, drawn from another one. -/
theorem equator_drawn (p : Sphere) (h0 : p.lat0 = 0) {lon : ℝ} (h1 : -π < rad lon - p.lon0) (h2 : rad lon - p.lon0 < π) :
    AzimuthalEqualArea.geo2rect p lon 0 = .ok (2 * p.r * sin ((rad lon - p.lon0) / 2), 0) := by
  have r0 : rad 0 = 0 := by simp [rad]
  set w := (rad lon - p.lon0) / 2 with hw
  have hww : rad lon - p.lon0 = 2 * w := by rw [hw]; ring
  have hcw : 0 < cos w := cos_pos_of_mem_Ioo ⟨by linarith, by linarith⟩
  have e : cosDist p lon 0 = 2 * cos w ^ 2 - 1 := by
    simp only [cosDist, h0, r0, sin_zero, cos_zero, hww, cos_two_mul]; ring
  rw [AzimuthalEqualArea.fwd p _ _ (by rw [e]; intro h; have := pow_pos hcw 2; linarith), e]
  have hq : √(2 / (1 + (2 * cos w ^ 2 - 1))) = (cos w)⁻¹ := by
    have h2 : (2 : ℝ) / (1 + (2 * cos w ^ 2 - 1)) = ((cos w)⁻¹) ^ 2 := by
      rw [inv_pow]; field_simp; ring
    rw [h2, sqrt_sq (by positivity)]
  simp only [hq, east, north, h0, r0, sin_zero, cos_zero, hww, sin_two_mul]
  congr 2
  · field_simp
  · ring

theorem pole_drawn (p : Sphere) (h0 : p.lat0 = 0) : AzimuthalEqualArea.geo2rect p 0 90 = .ok (0, p.r * √2) ∧ AzimuthalEqualArea.geo2rect p 0 (-90) = .ok (0, -(p.r * √2)) := by
  constructor
  · rw [AzimuthalEqualArea.fwd p _ _ (by simp [cosDist, h0, rad_90])]
    simp [cosDist, east, north, h0, rad_90]
  · rw [AzimuthalEqualArea.fwd p _ _ (by simp [cosDist, h0, rad_neg_90])]
    simp [cosDist, east, north, h0, rad_neg_90]

/-- A point of the equator, back on the sphere. -/
theorem equator_back (p : Sphere) (h0 : p.lat0 = 0) (hr : 0 < p.r) {w : ℝ} (hw : w ≠ 0) (h1 : |w| < π / 2) :
    AzimuthalEqualArea.rect2geo p (2 * p.r * sin (w / 2)) 0 = .ok (deg (p.lon0 + w), 0) := by
  have hpi := pi_pos
  obtain ⟨h2, h3⟩ := abs_lt.mp h1
  have hs : sin (|w| / 2) = |sin (w / 2)| := by
    rcases abs_cases w with ⟨e, g⟩ | ⟨e, g⟩
    · rw [e, abs_of_nonneg (sin_nonneg_of_nonneg_of_le_pi (by linarith) (by linarith))]
    · rw [e, neg_div, sin_neg, abs_of_nonpos (sin_nonpos_of_nonpos_of_neg_pi_le (by linarith) (by linarith))]
  have hp : 0 < |w| := abs_pos.mpr hw
  have hs0 : 0 < sin (|w| / 2) := sin_pos_of_pos_of_lt_pi (by linarith) (by linarith)
  have hd : √(2 * p.r * sin (w / 2) * (2 * p.r * sin (w / 2)) + 0 * 0) = 2 * p.r * sin (|w| / 2) := by
    rw [mul_zero, add_zero, sqrt_mul_self_eq_abs, abs_mul, abs_of_pos (by positivity : 0 < 2 * p.r), hs]
  simp only [AzimuthalEqualArea.rect2geo, hd]
  rw [rdiv_ok (by positivity), mul_div_cancel_left₀ _ (by positivity : 2 * p.r ≠ 0)]
  change (rasin _ >>= _) = _
  rw [rasin_ok (neg_one_le_sin _) (sin_le_one _), arcsin_sin (by linarith) (by linarith)]
  change azimuthal _ _ _ _ _ = _
  have hc : 0 < cos w := cos_pos_of_mem_Ioo ⟨h2, h3⟩
  rw [mul_div_cancel₀ _ (two_ne_zero), azimuthal, azimuthalQuot, h0, if_neg (by linarith), if_neg (by linarith), sin_zero, cos_zero, mul_one, mul_zero, zero_mul, sub_zero,
    cos_abs, rdiv_ok (by positivity)]
  have hq : 2 * p.r * sin (w / 2) * sin |w| / (2 * p.r * sin (|w| / 2) * cos w) = tan w := by
    rw [tan_eq_sin_div_cos, div_eq_div_iff (by positivity) hc.ne']
    rcases abs_cases w with ⟨e, g⟩ | ⟨e, g⟩
    · rw [e]; ring
    · rw [e, neg_div, sin_neg, sin_neg]; ring
  rw [hq]
  change ((rdiv (0 * 1) (2 * p.r * sin (|w| / 2))) >>= _) = _
  rw [zero_mul, rdiv_ok (by positivity), zero_div]
  change (rasin (cos w * 0 + 0) >>= _) = _
  rw [mul_zero, add_zero, rasin_ok (by norm_num) (by norm_num), arcsin_zero, arctan_tan h2 h3]
  change Except.ok (_, deg 0) = _
  rw [show deg 0 = 0 by simp [deg]]

/-- A quadrangle with corners on the equator and at the poles. -/
theorem kite_centroid (X1 X2 h : ℝ) (hne : h * (X2 - X1) ≠ 0) : polyCentroid [(X1, 0), (0, -h), (X2, 0), (0, h)] = .ok (((X1 + X2) / 3, 0), 2 * (h * (X2 - X1))) := by
  have hs : sideSums [(X1, 0), (0, -h), (X2, 0), (0, h)] = ((X1 + X2) / 3 * (3 * (2 * (h * (X2 - X1)))), 0, 2 * (h * (X2 - X1))) := by
    simp [sideSums]
    refine ⟨by ring, by ring⟩
  have h3 : 3 * (2 * (h * (X2 - X1))) ≠ 0 := by
    simpa using hne
  simp only [polyCentroid, hs, rdiv_ok h3, zero_div, mul_div_assoc, div_self h3, mul_one]
  rfl

/-- The three quadrangles of the example, from the centre `2 g` on the equator (in radians): the centroid is as far beyond the middle as the centre is on this side. -/
theorem kites_round {g : ℝ} (hg : cos g = cos (π / 5) + 1 / 6) (h0 : g ≠ 0) (h1 : |g| < π / 10) :
    round [[(-72, 0), (0, -90), (72, 0), (0, 90)], [(144, 0), (0, -90), (72, 0), (0, 90)], [(-72, 0), (0, -90), (-144, 0), (0, 90)]] (deg (2 * g), 0) = .ok (deg (-(2 * g)), 0) := by
  have hpi := pi_pos
  obtain ⟨g1, g2⟩ := abs_lt.mp h1
  set p := Sphere.new (some (deg (2 * g), (0 : ℝ))) none with hp
  have p1 : p.lon0 = 2 * g := rad_deg _
  have p2 : p.lat0 = 0 := by simp [hp, Sphere.new, rad]
  have hr : 0 < p.r := by norm_num [hp, Sphere.new, wgs84]
  obtain ⟨q1, q2⟩ := pole_drawn p p2
  have e1 : AzimuthalEqualArea.geo2rect p 72 0 = .ok (2 * p.r * sin (π / 5 - g), 0) := by
    have r : rad 72 = 2 * (π / 5) := by unfold rad; ring
    rw [equator_drawn p p2 (by rw [r, p1]; linarith) (by rw [r, p1]; linarith), r, p1]
    congr 4; ring
  have e2 : AzimuthalEqualArea.geo2rect p (-72) 0 = .ok (-(2 * p.r * sin (π / 5 + g)), 0) := by
    have r : rad (-72) = -(2 * (π / 5)) := by unfold rad; ring
    rw [equator_drawn p p2 (by rw [r, p1]; linarith) (by rw [r, p1]; linarith), r, p1, show (-(2 * (π / 5)) - 2 * g) / 2 = -(π / 5 + g) by ring, sin_neg, mul_neg]
  have e3 : AzimuthalEqualArea.geo2rect p 144 0 = .ok (2 * p.r * sin (2 * (π / 5) - g), 0) := by
    have r : rad 144 = 4 * (π / 5) := by unfold rad; ring
    rw [equator_drawn p p2 (by rw [r, p1]; linarith) (by rw [r, p1]; linarith), r, p1]
    congr 4; ring
  have e4 : AzimuthalEqualArea.geo2rect p (-144) 0 = .ok (-(2 * p.r * sin (2 * (π / 5) + g)), 0) := by
    have r : rad (-144) = -(4 * (π / 5)) := by unfold rad; ring
    rw [equator_drawn p p2 (by rw [r, p1]; linarith) (by rw [r, p1]; linarith), r, p1, show (-(4 * (π / 5)) - 2 * g) / 2 = -(2 * (π / 5) + g) by ring, sin_neg, mul_neg]
  -- sines and cosines of multiples of 36 degrees
  set x := cos (π / 5) with hx
  set s := sin (π / 5) with hsd
  have hs : 0 < s := sin_pos_of_pos_of_lt_pi (by linarith) (by linarith)
  have hx5 : 4 * x ^ 2 = 2 * x + 1 := by
    rw [hx, cos_pi_div_five]
    have := sq_sqrt (show (0 : ℝ) ≤ 5 by norm_num)
    linear_combination (1 / 4 : ℝ) * this
  have hx1 : x < 1 := by
    have : 0 < x := by rw [hx]; exact cos_pos_of_mem_Ioo ⟨by linarith, by linarith⟩
    nlinarith
  have hsx : s ^ 2 + x ^ 2 = 1 := sin_sq_add_cos_sq _
  have s2 : sin (2 * (π / 5)) = 2 * s * x := sin_two_mul _
  have c2 : cos (2 * (π / 5)) = 2 * x ^ 2 - 1 := cos_two_mul _
  have hsg := sin_sq_add_cos_sq g
  have hcg : 0 < cos g := cos_pos_of_mem_Ioo ⟨by linarith, by linarith⟩
  set sg := sin g
  set cg := cos g
  -- where the points are drawn
  set A := 2 * p.r * sin (π / 5 - g) with hA
  set B := -(2 * p.r * sin (π / 5 + g)) with hB
  set C := 2 * p.r * sin (2 * (π / 5) - g) with hC
  set D := -(2 * p.r * sin (2 * (π / 5) + g)) with hD
  have vA : A = 2 * p.r * (s * cg - x * sg) := by rw [hA, sin_sub]
  have vB : B = -(2 * p.r * (s * cg + x * sg)) := by rw [hB, sin_add]
  have vC : C = 2 * p.r * (2 * s * x * cg - (2 * x ^ 2 - 1) * sg) := by rw [hC, sin_sub, s2, c2]
  have vD : D = -(2 * p.r * (2 * s * x * cg + (2 * x ^ 2 - 1) * sg)) := by rw [hD, sin_add, s2, c2]
  have h2 : 0 < √(2 : ℝ) := by positivity
  set h := p.r * √2 with hh
  have hh0 : 0 < h := by positivity
  have lAC : A < C := by
    rw [hA, hC]
    apply mul_lt_mul_of_pos_left _ (by positivity)
    exact sin_lt_sin_of_lt_of_le_pi_div_two (by linarith) (by linarith) (by linarith)
  have lDB : D < B := by
    rw [hB, hD]
    apply neg_lt_neg
    apply mul_lt_mul_of_pos_left _ (by positivity)
    exact sin_lt_sin_of_lt_of_le_pi_div_two (by linarith) (by linarith) (by linarith)
  have lBA : B < A := by
    have a1 : 0 < sin (π / 5 - g) := sin_pos_of_pos_of_lt_pi (by linarith) (by linarith)
    have a2 : 0 < sin (π / 5 + g) := sin_pos_of_pos_of_lt_pi (by linarith) (by linarith)
    have := mul_pos (mul_pos two_pos hr) a1
    have := mul_pos (mul_pos two_pos hr) a2
    rw [hA, hB]
    linarith
  have k1 := kite_centroid B A h (mul_ne_zero hh0.ne' (by linarith))
  have k2 := kite_centroid C A h (mul_ne_zero hh0.ne' (by linarith))
  have k3 := kite_centroid B D h (mul_ne_zero hh0.ne' (by linarith))
  have m1 : ([(-72, 0), (0, -90), (72, 0), (0, 90)] : List (ℝ × ℝ)).mapM (fun q : ℝ × ℝ => AzimuthalEqualArea.geo2rect p q.1 q.2) = .ok [(B, 0), (0, -h), (A, 0), (0, h)] := by
    simp only [List.mapM_cons, q1, q2, e1, e2, List.mapM_nil]
    rfl
  have m2 : ([(144, 0), (0, -90), (72, 0), (0, 90)] : List (ℝ × ℝ)).mapM (fun q : ℝ × ℝ => AzimuthalEqualArea.geo2rect p q.1 q.2) = .ok [(C, 0), (0, -h), (A, 0), (0, h)] := by
    simp only [List.mapM_cons, q1, q2, e1, e3, List.mapM_nil]
    rfl
  have m3 : ([(-72, 0), (0, -90), (-144, 0), (0, 90)] : List (ℝ × ℝ)).mapM (fun q : ℝ × ℝ => AzimuthalEqualArea.geo2rect p q.1 q.2) = .ok [(B, 0), (0, -h), (D, 0), (0, h)] := by
    simp only [List.mapM_cons, q1, q2, e2, e4, List.mapM_nil]
    rfl
  have hsum : 2 * (h * (A - B)) + (2 * (h * (A - C)) + 2 * (h * (D - B))) = 2 * h * (2 * p.r) * (4 * s * cg * (1 - x)) := by
    rw [vA, vB, vC, vD]; ring
  have hsne : 2 * (h * (A - B)) + (2 * (h * (A - C)) + 2 * (h * (D - B))) ≠ 0 := by
    rw [hsum]
    have := sub_pos.mpr hx1
    positivity
  have hw : weighted [(((B + A) / 3, 0), 2 * (h * (A - B))), (((C + A) / 3, 0), 2 * (h * (A - C))), (((B + D) / 3, 0), 2 * (h * (D - B)))] =
      .ok (2 * p.r * sin (-(4 * g) / 2), 0) := by
    rw [weighted_ok]
    simp only [List.map_cons, List.map_nil, List.sum_cons, List.sum_nil, add_zero]
    refine ⟨hsne, ?_, by simp⟩
    rw [eq_div_iff hsne, hsum, show -(4 * g) / 2 = -(2 * g) by ring, sin_neg, sin_two_mul]
    change 2 * p.r * -(2 * sg * cg) * (2 * h * (2 * p.r) * (4 * s * cg * (1 - x))) = _
    rw [vA, vB, vC, vD]
    linear_combination (-64 * h * p.r ^ 2 * s * cg * sg * (1 - x)) * hg + (64 / 6 * h * p.r ^ 2 * s * cg * sg * (1 - x)) * hx5
  have hcw : ([[(-72, 0), (0, -90), (72, 0), (0, 90)], [(144, 0), (0, -90), (72, 0), (0, 90)], [(-72, 0), (0, -90), (-144, 0), (0, 90)]] : List (List (ℝ × ℝ))).mapM
      (fun poly => poly.mapM (fun q : ℝ × ℝ => AzimuthalEqualArea.geo2rect p q.1 q.2) >>= polyCentroid) =
      .ok [(((B + A) / 3, 0), 2 * (h * (A - B))), (((C + A) / 3, 0), 2 * (h * (A - C))), (((B + D) / 3, 0), 2 * (h * (D - B)))] :=
    Py.mapM_ok.mpr (.cons (by rw [m1]; exact k1) (.cons (by rw [m2]; exact k2) (.cons (by rw [m3]; exact k3) .nil)))
  unfold round
  change (List.mapM (fun poly => List.mapM (fun q : ℝ × ℝ => AzimuthalEqualArea.geo2rect p q.1 q.2) poly >>= polyCentroid) _ >>= _) = _
  rw [hcw]
  change (weighted _ >>= _) = _
  rw [hw]
  change AzimuthalEqualArea.rect2geo p (2 * p.r * sin (-(4 * g) / 2)) 0 = _
  rw [equator_back p p2 hr (by simpa using h0) (by rw [abs_neg, abs_mul]; norm_num; linarith), p1]
  congr 3
  ring

/-- C116 fails: `geocentroid` does not always end. For the three quadrangles between the poles over the longitudes -72 to 72, 72 to 144 and -144 to -72, the last two given in
the other direction, and a box around a certain place of the equator, the search goes back and forth between two places forever. -/
theorem C116_endless_violated : ∃ c : ℝ, (0 < c ∧ c < 36) ∧ ∀ epsilon : Option ℝ, (∀ e ∈ epsilon, e < 2 * c) → ∀ r,
    ¬ Geocentroid [[(-72, 0), (0, -90), (72, 0), (0, 90)], [(144, 0), (0, -90), (72, 0), (0, 90)], [(-72, 0), (0, -90), (-144, 0), (0, 90)]] (some ⟨c - 1, -1, c + 1, 1⟩) epsilon r := by
  have hpi := pi_pos
  set x := cos (π / 5) with hx
  have hx0 : 2 / 3 < x ∧ x < 5 / 6 := by
    have h5 := sq_sqrt (show (0 : ℝ) ≤ 5 by norm_num)
    have h50 := sqrt_nonneg (5 : ℝ)
    rw [hx, cos_pi_div_five]
    constructor
    · nlinarith
    · nlinarith
  have hx5 : 4 * x ^ 2 = 2 * x + 1 := by
    rw [hx, cos_pi_div_five]
    have := sq_sqrt (show (0 : ℝ) ≤ 5 by norm_num)
    linear_combination (1 / 4 : ℝ) * this
  set g := arccos (x + 1 / 6) with hg
  have cg : cos g = x + 1 / 6 := cos_arccos (by linarith) (by linarith)
  have g0 : 0 < g := arccos_pos.mpr (by linarith)
  have g1 : g < π / 10 := by
    by_contra hle
    push Not at hle
    have h1 : cos g ≤ cos (π / 10) := cos_le_cos_of_nonneg_of_le_pi (by linarith) (arccos_le_pi _) hle
    have h2 : cos (π / 5) = 2 * cos (π / 10) ^ 2 - 1 := by rw [← cos_two_mul]; congr 1; ring
    have h3 : 0 < cos (π / 10) := cos_pos_of_mem_Ioo ⟨by linarith, by linarith⟩
    rw [cg] at h1
    rw [← hx] at h2
    have h4 : (x + 1 / 6) ^ 2 ≤ cos (π / 10) ^ 2 := by
      apply pow_le_pow_left₀ (by linarith) h1
    nlinarith
  have c0 : 0 < deg (2 * g) := by unfold deg; positivity
  have hneg : deg (-(2 * g)) = -deg (2 * g) := by unfold deg; ring
  refine ⟨deg (2 * g), ⟨c0, ?_⟩, ?_⟩
  · rw [← rad_lt, rad_deg, show rad 36 = 2 * (π / 10) by unfold rad; ring]; linarith
  intro epsilon he r hG
  have heps : epsilon.getD 1e-10 < 2 * deg (2 * g) := by
    cases epsilon with
    | some e => exact he e rfl
    | none =>
      have hq : 1 / 100 < g := by
        by_contra hle
        push Not at hle
        have h1 : 1 - g ^ 2 / 2 ≤ cos g := one_sub_sq_div_two_le_cos
        rw [cg] at h1
        have h50 := sqrt_nonneg (5 : ℝ)
        have h5 := sq_sqrt (show (0 : ℝ) ≤ 5 by norm_num)
        have : x < 82 / 100 := by
          rw [hx, cos_pi_div_five]; nlinarith
        nlinarith
      have : 1 / 100 * 180 / 4 ≤ deg (2 * g) := by
        unfold deg
        rw [le_div_iff₀ hpi]
        have := pi_le_four
        nlinarith
      simp only [Option.getD_none]
      norm_num at this ⊢
      linarith
  have r1 := kites_round (g := g) cg g0.ne' (by rw [abs_of_pos g0]; exact g1)
  have r2 := kites_round (g := -g) (by rw [cos_neg]; exact cg) (by simpa using g0.ne') (by rw [abs_neg, abs_of_pos g0]; exact g1)
  rw [show 2 * -g = -(2 * g) by ring, neg_neg] at r2
  rw [hneg] at r1 r2
  generalize deg (2 * g) = c at *
  have endless : ∀ {c0 : ℝ × ℝ} {r : Py (ℝ × ℝ)}, Loop [[(-72, 0), (0, -90), (72, 0), (0, 90)], [(144, 0), (0, -90), (72, 0), (0, 90)], [(-72, 0), (0, -90), (-144, 0), (0, 90)]]
      (epsilon.getD 1e-10) c0 r → c0 = (c, 0) ∨ c0 = (-c, 0) → False := by
    intro c0 r hl
    have far : ∀ {a b : ℝ × ℝ}, (a = (c, 0) ∧ b = (-c, 0) ∨ a = (-c, 0) ∧ b = (c, 0)) → ¬ |a.1 - b.1| ≤ epsilon.getD 1e-10 := by
      rintro a b (⟨rfl, rfl⟩ | ⟨rfl, rfl⟩) h
      · rw [abs_of_pos (by linarith)] at h; linarith
      · rw [abs_of_neg (by linarith)] at h; linarith
    induction hl with
    | stop h1 h2 =>
      rintro (rfl | rfl)
      · rw [r1] at h1; injection h1 with h1
        exact far (.inr ⟨h1.symm, rfl⟩) h2.1
      · rw [r2] at h1; injection h1 with h1
        exact far (.inl ⟨h1.symm, rfl⟩) h2.1
    | next h1 _ _ ih =>
      rintro (rfl | rfl)
      · rw [r1] at h1; injection h1 with h1
        exact ih (.inr h1.symm)
      · rw [r2] at h1; injection h1 with h1
        exact ih (.inl h1.symm)
    | raise h1 =>
      rintro (rfl | rfl)
      · rw [r1] at h1; cases h1
      · rw [r2] at h1; cases h1
  cases hG with
  | given hb hl =>
    injection hb with hb
    subst hb
    have : (⟨c - 1, -1, c + 1, 1⟩ : BBox ℝ).center = (c, 0) := by simp [BBox.center]
    exact endless hl (.inl this)
  | found hb => cases hb
  | empty hb => cases hb
  | raise hb => cases hb

end Geoc
end Coral
