import Verif.Proofs.Mercator

namespace Coral
namespace Proj

open Real Sph

theorem arctan_tan_near {D : ℝ} (hD : 0 < cos D) : ∃ k : ℤ, arctan (tan D) = D + 2 * π * k := by
  have hn : √(1 + tan D ^ 2) = (cos D)⁻¹ := by
    rw [← inv_sqrt_one_add_tan_sq hD, inv_inv]
  refine angle_eq ?_ ?_
  · rw [cos_arctan, hn]
    field_simp
  · rw [sin_arctan, hn, tan_eq_sin_div_cos]
    field_simp

theorem arctan_tan_far {D : ℝ} (hD : cos D < 0) : ∃ k : ℤ, arctan (tan D) = D + π + 2 * π * k := by
  have h : 0 < cos (D + π) := by
    rw [cos_add_pi]
    linarith
  obtain ⟨k, hk⟩ := arctan_tan_near h
  rw [tan_add_pi] at hk
  exact ⟨k, hk⟩

/-- The coordinates of a position in the frame of the centre. -/
noncomputable def east (p : Sphere) (lon lat : ℝ) : ℝ := cos (rad lat) * sin (rad lon - p.lon0)

noncomputable def north (p : Sphere) (lon lat : ℝ) : ℝ := cos p.lat0 * sin (rad lat) - sin p.lat0 * cos (rad lat) * cos (rad lon - p.lon0)

theorem plane_eq (p : Sphere) (k lon lat : ℝ) : plane p k lon lat = (p.r * k * east p lon lat, p.r * k * north p lon lat) := rfl

theorem east_north (p : Sphere) (lon lat : ℝ) : east p lon lat ^ 2 + north p lon lat ^ 2 = 1 - cosDist p lon lat ^ 2 := by
  have h0 := sin_sq_add_cos_sq p.lat0
  have h1 := sin_sq_add_cos_sq (rad lat)
  have h2 := sin_sq_add_cos_sq (rad lon - p.lon0)
  rw [east, north, cosDist]
  linear_combination (sin (rad lat) ^ 2 + cos (rad lat) ^ 2 * cos (rad lon - p.lon0) ^ 2) * h0 + h1 + cos (rad lat) ^ 2 * h2

theorem cosDist_range (p : Sphere) (lon lat : ℝ) : -1 ≤ cosDist p lon lat ∧ cosDist p lon lat ≤ 1 := by
  have := east_north p lon lat
  rw [← abs_le, ← sq_le_one_iff_abs_le_one]
  nlinarith [sq_nonneg (east p lon lat), sq_nonneg (north p lon lat)]

/-- The distance from the centre, as an angle. -/
noncomputable def away (p : Sphere) (lon lat : ℝ) : ℝ := arccos (cosDist p lon lat)

theorem cos_away (p : Sphere) (lon lat : ℝ) : cos (away p lon lat) = cosDist p lon lat :=
  cos_arccos (cosDist_range p lon lat).1 (cosDist_range p lon lat).2

theorem away_range (p : Sphere) (lon lat : ℝ) : 0 ≤ away p lon lat ∧ away p lon lat ≤ π := ⟨arccos_nonneg _, arccos_le_pi _⟩

theorem sin_away_nonneg (p : Sphere) (lon lat : ℝ) : 0 ≤ sin (away p lon lat) :=
  sin_nonneg_of_nonneg_of_le_pi (away_range p lon lat).1 (away_range p lon lat).2

theorem sin_away_sq (p : Sphere) (lon lat : ℝ) : sin (away p lon lat) ^ 2 = east p lon lat ^ 2 + north p lon lat ^ 2 := by
  rw [sin_sq, cos_away, east_north]

/-- The distance in the plane. -/
theorem plane_dist (p : Sphere) {k : ℝ} (lon lat : ℝ) (h : 0 ≤ p.r * k) :
    √(p.r * k * east p lon lat * (p.r * k * east p lon lat) + p.r * k * north p lon lat * (p.r * k * north p lon lat)) =
      p.r * k * sin (away p lon lat) := by
  rw [sqrt_eq_iff_mul_self_eq (add_nonneg (mul_self_nonneg _) (mul_self_nonneg _)) (mul_nonneg h (sin_away_nonneg p lon lat))]
  linear_combination (-(p.r * k) ^ 2) * sin_away_sq p lon lat

theorem polar_plus {l : ℝ} (h : l = π / 2) : sin l = 1 ∧ cos l = 0 := by
  rw [h]
  exact ⟨sin_pi_div_two, cos_pi_div_two⟩

theorem polar_minus {l : ℝ} (h : l = -π / 2) : sin l = -1 ∧ cos l = 0 := by
  rw [h, neg_div, sin_neg, cos_neg]
  exact ⟨by rw [sin_pi_div_two], cos_pi_div_two⟩

theorem lon_den (p : Sphere) (lon lat : ℝ) : cos p.lat0 * cosDist p lon lat - sin p.lat0 * north p lon lat = cos (rad lat) * cos (rad lon - p.lon0) := by
  rw [cosDist, north]
  linear_combination cos (rad lat) * cos (rad lon - p.lon0) * sin_sq_add_cos_sq p.lat0

theorem lat_num (p : Sphere) (lon lat : ℝ) : cosDist p lon lat * sin p.lat0 + north p lon lat * cos p.lat0 = sin (rad lat) := by
  rw [cosDist, north]
  linear_combination sin (rad lat) * sin_sq_add_cos_sq p.lat0

/-- The inverse formulas, at a plane point in the right direction. -/
theorem azimuthal_eq (p : Sphere) {m lon lat : ℝ} (hm : 0 < m) (hs : 0 < sin (away p lon lat)) (h : |lat| < 90) (hD : cos (rad lon - p.lon0) ≠ 0) :
    azimuthal p (m * east p lon lat) (m * north p lon lat) (m * sin (away p lon lat)) (away p lon lat) =
      .ok (deg (p.lon0 + arctan (tan (rad lon - p.lon0))), lat) := by
  have hc := cos_rad_pos h
  obtain ⟨l1, l2⟩ := rad_bounds h
  have hq : azimuthalQuot p (m * east p lon lat) (m * north p lon lat) (m * sin (away p lon lat)) (away p lon lat) = .ok (tan (rad lon - p.lon0)) := by
    rw [azimuthalQuot]
    rw [tan_eq_sin_div_cos]
    split_ifs with h1 h2
    · obtain ⟨e1, e2⟩ := polar_plus h1
      have e : -(m * north p lon lat) = m * (cos (rad lat) * cos (rad lon - p.lon0)) := by
        rw [north, e1, e2]
        ring
      rw [e, rdiv_ok (mul_ne_zero hm.ne' (mul_ne_zero hc.ne' hD)), east]
      congr 1
      field_simp
    · obtain ⟨e1, e2⟩ := polar_minus h2
      have e : m * north p lon lat = m * (cos (rad lat) * cos (rad lon - p.lon0)) := by
        rw [north, e1, e2]
        ring
      rw [e, rdiv_ok (mul_ne_zero hm.ne' (mul_ne_zero hc.ne' hD)), east]
      congr 1
      field_simp
    · have e : m * sin (away p lon lat) * cos p.lat0 * cos (away p lon lat) - m * north p lon lat * sin p.lat0 * sin (away p lon lat) =
          m * sin (away p lon lat) * (cos (rad lat) * cos (rad lon - p.lon0)) := by
        rw [cos_away, ← lon_den]
        ring
      rw [e, rdiv_ok (mul_ne_zero (mul_ne_zero hm.ne' hs.ne') (mul_ne_zero hc.ne' hD)), east]
      congr 1
      field_simp
  have hl : cos (away p lon lat) * sin p.lat0 + m * north p lon lat * sin (away p lon lat) * cos p.lat0 / (m * sin (away p lon lat)) = sin (rad lat) := by
    rw [cos_away, ← lat_num p lon lat]
    field_simp
  rw [azimuthal, hq]
  change (rdiv _ (m * sin (away p lon lat)) >>= _) = _
  rw [rdiv_ok (mul_ne_zero hm.ne' hs.ne')]
  change (rasin _ >>= _) = _
  rw [hl, rasin_sin l1.le l2.le]
  change Except.ok _ = _
  rw [deg_rad]

/-- On the meridians a quarter away the inverse divides by zero. -/
theorem azimuthal_quarter (p : Sphere) (m lon lat : ℝ) (hD : cos (rad lon - p.lon0) = 0) :
    azimuthal p (m * east p lon lat) (m * north p lon lat) (m * sin (away p lon lat)) (away p lon lat) = .error .zeroDivisionError := by
  have hz : ∀ {a b : ℝ}, b = 0 → rdiv a b = .error .zeroDivisionError := fun h => if_pos h
  rw [azimuthal, azimuthalQuot]
  split_ifs with h1 h2
  · rw [hz]
    · rfl
    · rw [north, (polar_plus h1).2, hD]
      ring
  · rw [hz]
    · rfl
    · rw [north, (polar_minus h2).2, hD]
      ring
  · rw [hz]
    · rfl
    · have e : m * sin (away p lon lat) * cos p.lat0 * cos (away p lon lat) - m * north p lon lat * sin p.lat0 * sin (away p lon lat) =
          m * sin (away p lon lat) * (cos (rad lat) * cos (rad lon - p.lon0)) := by
        rw [cos_away, ← lon_den]
        ring
      rw [e, hD]
      ring

/-- At the origin of the plane the inverse divides by zero. -/
theorem azimuthal_origin (p : Sphere) (c : ℝ) : azimuthal p 0 0 0 c = .error .zeroDivisionError := by
  have hz : ∀ {a b : ℝ}, b = 0 → rdiv a b = .error .zeroDivisionError := fun h => if_pos h
  rw [azimuthal, azimuthalQuot]
  split_ifs
  all_goals
    rw [hz (by ring)]
    rfl

/-! ### The three projections -/

theorem half_away {γ : ℝ} (h : -1 < cos γ) (h0 : 0 ≤ γ) (h1 : γ ≤ π) : 0 ≤ γ / 2 ∧ γ / 2 < π / 2 ∧ 0 < cos (γ / 2) := by
  have hne : γ ≠ π := by
    rintro rfl
    rw [cos_pi] at h
    exact lt_irrefl _ h
  have hlt := lt_of_le_of_ne h1 hne
  exact ⟨by linarith, by linarith, cos_pos_of_mem_Ioo ⟨by linarith, by linarith⟩⟩

theorem one_add_cos (γ : ℝ) : 1 + cos γ = 2 * cos (γ / 2) ^ 2 := by
  have := cos_sq (γ / 2)
  rw [show 2 * (γ / 2) = γ by ring] at this
  linarith

theorem sin_double_half (γ : ℝ) : sin γ = 2 * sin (γ / 2) * cos (γ / 2) := by
  rw [← sin_two_mul]
  congr 1
  ring

theorem cosDist_away {p : Sphere} {lon lat : ℝ} (h : cosDist p lon lat ≠ -1) : -1 < cos (away p lon lat) := by
  rw [cos_away]
  exact lt_of_le_of_ne (cosDist_range p lon lat).1 h.symm

theorem sin_away_pos {p : Sphere} {lon lat : ℝ} (h : cosDist p lon lat ≠ -1) (h' : cosDist p lon lat ≠ 1) : 0 < sin (away p lon lat) := by
  refine sin_pos_of_pos_of_lt_pi (lt_of_le_of_ne (away_range p lon lat).1 fun e => h' ?_) (lt_of_le_of_ne (away_range p lon lat).2 fun e => h ?_)
  · rw [← cos_away, ← e, cos_zero]
  · rw [← cos_away, e, cos_pi]

theorem Stereographic.fwd (p : Sphere) (lon lat : ℝ) (h : cosDist p lon lat ≠ -1) :
    Stereographic.geo2rect p lon lat = .ok (p.r * (2 / (1 + cosDist p lon lat)) * east p lon lat, p.r * (2 / (1 + cosDist p lon lat)) * north p lon lat) := by
  rw [Stereographic.geo2rect, rdiv_ok (by intro e; exact h (by linarith))]
  rfl

theorem Stereographic.bwd (p : Sphere) (hr : 0 < p.r) (lon lat : ℝ) (h : cosDist p lon lat ≠ -1) :
    Stereographic.rect2geo p (p.r * (2 / (1 + cosDist p lon lat)) * east p lon lat) (p.r * (2 / (1 + cosDist p lon lat)) * north p lon lat) =
      azimuthal p (p.r * (2 / (1 + cosDist p lon lat)) * east p lon lat) (p.r * (2 / (1 + cosDist p lon lat)) * north p lon lat)
        (p.r * (2 / (1 + cosDist p lon lat)) * sin (away p lon lat)) (away p lon lat) := by
  obtain ⟨a0, a1⟩ := away_range p lon lat
  obtain ⟨b0, b1, b2⟩ := half_away (cosDist_away h) a0 a1
  have e := one_add_cos (away p lon lat)
  have hk : 0 ≤ p.r * (2 / (1 + cosDist p lon lat)) := by
    rw [← cos_away, e]
    positivity
  have hc : 2 * arctan (p.r * (2 / (1 + cosDist p lon lat)) * sin (away p lon lat) / (2 * p.r)) = away p lon lat := by
    have : p.r * (2 / (1 + cosDist p lon lat)) * sin (away p lon lat) / (2 * p.r) = tan (away p lon lat / 2) := by
      rw [← cos_away, e, sin_double_half, tan_eq_sin_div_cos]
      field_simp
    rw [this, arctan_tan (by linarith) b1]
    ring
  rw [Stereographic.rect2geo]
  simp only [plane_dist p lon lat hk]
  rw [rdiv_ok (by positivity)]
  change azimuthal _ _ _ _ (2 * arctan _) = _
  rw [hc]

theorem AzimuthalEqualArea.fwd (p : Sphere) (lon lat : ℝ) (h : cosDist p lon lat ≠ -1) :
    AzimuthalEqualArea.geo2rect p lon lat = .ok (p.r * √(2 / (1 + cosDist p lon lat)) * east p lon lat, p.r * √(2 / (1 + cosDist p lon lat)) * north p lon lat) := by
  have h0 := (cosDist_range p lon lat).1
  rw [AzimuthalEqualArea.geo2rect, rdiv_ok (by intro e; exact h (by linarith))]
  change (rsqrt _ >>= _) = _
  rw [rsqrt_ok (div_nonneg two_pos.le (by linarith))]
  rfl

theorem AzimuthalEqualArea.bwd (p : Sphere) (hr : 0 < p.r) (lon lat : ℝ) (h : cosDist p lon lat ≠ -1) :
    AzimuthalEqualArea.rect2geo p (p.r * √(2 / (1 + cosDist p lon lat)) * east p lon lat) (p.r * √(2 / (1 + cosDist p lon lat)) * north p lon lat) =
      azimuthal p (p.r * √(2 / (1 + cosDist p lon lat)) * east p lon lat) (p.r * √(2 / (1 + cosDist p lon lat)) * north p lon lat)
        (p.r * √(2 / (1 + cosDist p lon lat)) * sin (away p lon lat)) (away p lon lat) := by
  obtain ⟨a0, a1⟩ := away_range p lon lat
  obtain ⟨b0, b1, b2⟩ := half_away (cosDist_away h) a0 a1
  have e := one_add_cos (away p lon lat)
  have hs : √(2 / (1 + cosDist p lon lat)) = (cos (away p lon lat / 2))⁻¹ := by
    rw [← cos_away, e, sqrt_eq_iff_mul_self_eq (by positivity) (by positivity)]
    field_simp
  have hk : 0 ≤ p.r * √(2 / (1 + cosDist p lon lat)) := by positivity
  have hq : p.r * √(2 / (1 + cosDist p lon lat)) * sin (away p lon lat) / (2 * p.r) = sin (away p lon lat / 2) := by
    rw [hs, sin_double_half]
    field_simp
  rw [AzimuthalEqualArea.rect2geo]
  simp only [plane_dist p lon lat hk]
  rw [rdiv_ok (by positivity), hq]
  change (rasin (sin (away p lon lat / 2)) >>= _) = _
  rw [rasin_sin (by linarith) b1.le]
  change azimuthal _ _ _ _ (2 * (away p lon lat / 2)) = _
  rw [mul_div_cancel₀ _ two_ne_zero]

theorem AzimuthalEquidistant.fwd (p : Sphere) (lon lat : ℝ) (h : 0 < sin (away p lon lat)) :
    AzimuthalEquidistant.geo2rect p lon lat = .ok (p.r * (away p lon lat / sin (away p lon lat)) * east p lon lat,
      p.r * (away p lon lat / sin (away p lon lat)) * north p lon lat) := by
  have hne : ¬ (rad lon = p.lon0 ∧ rad lat = p.lat0) := by
    rintro ⟨e1, e2⟩
    have : cosDist p lon lat = 1 := by
      rw [cosDist, e1, e2, sub_self, cos_zero, mul_one, ← sq, ← sq, sin_sq_add_cos_sq]
    rw [away, this, arccos_one, sin_zero] at h
    exact lt_irrefl _ h
  rw [AzimuthalEquidistant.geo2rect, if_neg hne, racos_ok (cosDist_range p lon lat).1 (cosDist_range p lon lat).2]
  change (rdiv (away p lon lat) (sin (away p lon lat)) >>= _) = _
  rw [rdiv_ok h.ne']
  rfl

theorem AzimuthalEquidistant.bwd (p : Sphere) (hr : 0 < p.r) (lon lat : ℝ) (h : 0 < sin (away p lon lat)) :
    AzimuthalEquidistant.rect2geo p (p.r * (away p lon lat / sin (away p lon lat)) * east p lon lat) (p.r * (away p lon lat / sin (away p lon lat)) * north p lon lat) =
      azimuthal p (p.r * (away p lon lat / sin (away p lon lat)) * east p lon lat) (p.r * (away p lon lat / sin (away p lon lat)) * north p lon lat)
        (p.r * (away p lon lat / sin (away p lon lat)) * sin (away p lon lat)) (away p lon lat) := by
  have hk : 0 ≤ p.r * (away p lon lat / sin (away p lon lat)) := mul_nonneg hr.le (div_nonneg (away_range p lon lat).1 h.le)
  rw [AzimuthalEquidistant.rect2geo]
  simp only [plane_dist p lon lat hk]
  rw [rdiv_ok hr.ne']
  change azimuthal _ _ _ _ (p.r * (away p lon lat / sin (away p lon lat)) * sin (away p lon lat) / p.r) = _
  congr 1
  field_simp

/-- At a place that is the centre or its antipode the formula of the equidistant projection divides by zero, unless the coordinates are those of the centre. -/
theorem AzimuthalEquidistant.fwd_zero (p : Sphere) (lon lat : ℝ) (h : cosDist p lon lat = 1 ∨ cosDist p lon lat = -1)
    (hne : ¬ (rad lon = p.lon0 ∧ rad lat = p.lat0)) : AzimuthalEquidistant.geo2rect p lon lat = .error .zeroDivisionError := by
  rw [AzimuthalEquidistant.geo2rect, if_neg hne, racos_ok (cosDist_range p lon lat).1 (cosDist_range p lon lat).2]
  have hz : ∀ {a b : ℝ}, b = 0 → rdiv a b = .error .zeroDivisionError := fun h => if_pos h
  change (rdiv (arccos (cosDist p lon lat)) (sin (arccos (cosDist p lon lat))) >>= _) = _
  rw [hz]
  · rfl
  · rcases h with h | h <;> rw [h, sin_arccos] <;> norm_num

/-- With the centre given in degrees. -/
theorem cosDist_dot (lon0 lat0 lon lat r : ℝ) : cosDist (Sphere.new (some (lon0, lat0)) (some r)) lon lat = dot lon0 lat0 lon lat := by
  rw [cosDist, dot, ← cos_neg (rad lon0 - rad lon), neg_sub]
  simp only [Sphere.new, Option.getD_some]
  ring

theorem away_arc (lon0 lat0 lon lat r : ℝ) : away (Sphere.new (some (lon0, lat0)) (some r)) lon lat = Spec.arc lon0 lat0 lon lat := by
  rw [away, cosDist_dot, ← cos_arc, arccos_cos (arc_nonneg _ _ _ _) (arc_le_pi _ _ _ _)]

end Proj
end Coral
