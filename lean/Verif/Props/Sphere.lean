import Verif.Proofs.Sphere

/-!
# C15-C18: angles and great circles
-/
namespace Coral
namespace Sph

open Real Proj Spec

/-! ## C15 -/

/-- C15: the loops of `corangle` end, in exactly one value. -/
theorem C15_terminates (a : ℝ) : ∃! b, Corangle a b :=
  ⟨corangle a, corangle_spec a, fun _ h => h.det (corangle_spec a)⟩

/-- C15: the value is in `[-pi, pi]` and differs from the argument by full turns. -/
theorem C15_value (a b : ℝ) (h : Corangle a b) : -π ≤ b ∧ b ≤ π ∧ ∃ k : ℤ, b - a = 2 * π * k :=
  ⟨h.range.1, h.range.2, h.turns.imp fun k hk => by rw [hk]; ring⟩

/-- C15: an angle in the range is returned unchanged. -/
theorem C15_unchanged (a : ℝ) (h1 : -π ≤ a) (h2 : a ≤ π) : Corangle a a :=
  ⟨a, .done (not_lt.mpr h1), .done (not_lt.mpr h2)⟩

/-- Three half turns become a half turn. -/
example : Corangle (3 * π) π := by
  have hp := pi_pos
  refine ⟨3 * π, .done (by simp only [not_lt]; linarith), .step (by simp only [gt_iff_lt]; linarith) ?_⟩
  rw [show 3 * π - 2 * π = π by ring]
  exact .done (lt_irrefl _)

/-! ## C16 -/

/-- C16: `haversine` returns the radius times the angle between the positions. -/
theorem C16_arc (lon1 lat1 lon2 lat2 R : ℝ) : haversine lon1 lat1 lon2 lat2 (some R) = .ok (R * arc lon1 lat1 lon2 lat2) :=
  haversine_eq lon1 lat1 lon2 lat2 R

/-- C16: the distance is symmetric, with a given radius and with the default one. -/
theorem C16_symm (lon1 lat1 lon2 lat2 : ℝ) (R : Option ℝ) : haversine lon1 lat1 lon2 lat2 R = haversine lon2 lat2 lon1 lat1 R := by
  have h : hav lon1 lat1 lon2 lat2 = hav lon2 lat2 lon1 lat1 := by
    rw [sin_half_arc, sin_half_arc, arc_comm]
  rw [haversine, haversine, h, add_comm lat1 lat2]

/-- C16: the distance is between `0` and `pi * R`. -/
theorem C16_range (lon1 lat1 lon2 lat2 R : ℝ) (hR : 0 ≤ R) :
    ∃ d, haversine lon1 lat1 lon2 lat2 (some R) = .ok d ∧ 0 ≤ d ∧ d ≤ π * R :=
  ⟨_, haversine_eq _ _ _ _ _, mul_nonneg hR (arc_nonneg _ _ _ _), by
    rw [mul_comm]
    exact mul_le_mul_of_nonneg_right (arc_le_pi _ _ _ _) hR⟩

/-- C16: the distance is zero exactly for coinciding positions. -/
theorem C16_zero (lon1 lat1 lon2 lat2 R : ℝ) (hR : 0 < R) :
    haversine lon1 lat1 lon2 lat2 (some R) = .ok 0 ↔ pos lon1 lat1 = pos lon2 lat2 := by
  rw [haversine_eq, ← arc_eq_zero]
  constructor
  · intro h
    exact (mul_eq_zero.mp (Except.ok.inj h)).resolve_left hR.ne'
  · intro h
    rw [h, mul_zero]

/-- C16: the triangle inequality. -/
theorem C16_triangle (lon1 lat1 lon2 lat2 lon3 lat3 R : ℝ) (hR : 0 ≤ R) :
    ∃ a b c, haversine lon1 lat1 lon2 lat2 (some R) = .ok a ∧ haversine lon2 lat2 lon3 lat3 (some R) = .ok b ∧
      haversine lon1 lat1 lon3 lat3 (some R) = .ok c ∧ c ≤ a + b := by
  refine ⟨_, _, _, haversine_eq _ _ _ _ _, haversine_eq _ _ _ _ _, haversine_eq _ _ _ _ _, ?_⟩
  rw [← mul_add]
  exact mul_le_mul_of_nonneg_left (InnerProductGeometry.angle_le_angle_add_angle _ _ _) hR

/-- A quarter of the equator. -/
example : haversine 0 0 90 0 (some 2) = .ok π := by
  have h : arc 0 0 90 0 = π / 2 := by
    have hc : cos (arc 0 0 90 0) = cos (π / 2) := by
      rw [cos_arc, dot, rad_90]
      simp [rad]
    exact injOn_cos ⟨arc_nonneg _ _ _ _, arc_le_pi _ _ _ _⟩ ⟨by linarith [pi_pos], by linarith [pi_pos]⟩ hc
  rw [C16_arc, h]
  congr 1
  ring

/-! ## C17 -/

/-- C17: `destination` with the bearing and the distance to a point is that point, its longitude normalised. -/
theorem C17_inverse (lon1 lat1 lon2 lat2 R : ℝ) (hR : 0 < R) (h1 : |lat1| < 90) (h2 : |lat2| < 90) :
    ∃ d lon, haversine lon1 lat1 lon2 lat2 (some R) = .ok d ∧
      destination lon1 lat1 (bearing lon1 lat1 lon2 lat2) d (some R) = .ok (lon, lat2) ∧
      -180 ≤ lon ∧ lon ≤ 180 ∧ ∃ k : ℤ, lon = lon2 + 360 * k := by
  obtain ⟨k, hk⟩ := destination_eq (lon1 := lon1) (lon2 := lon2) hR.ne' h1 h2
  refine ⟨_, _, haversine_eq _ _ _ _ _, hk, ?_, ?_, ?_⟩
  · rw [← deg_pi, ← deg_neg, deg_le]
    exact (corangle_range _).1
  · rw [← deg_pi, deg_le]
    exact (corangle_range _).2
  · obtain ⟨j, hj⟩ := corangle_turns (rad lon2 + 2 * π * k)
    refine ⟨k + j, ?_⟩
    rw [hj, deg_add, deg_add, deg_turns, deg_turns, deg_rad]
    push_cast
    ring

/-- C17: a longitude inside the range comes back as it is. -/
theorem C17_exact (lon1 lat1 lon2 lat2 R : ℝ) (hR : 0 < R) (h1 : |lat1| < 90) (h2 : |lat2| < 90) (h : |lon2| < 180) :
    ∃ d, haversine lon1 lat1 lon2 lat2 (some R) = .ok d ∧
      destination lon1 lat1 (bearing lon1 lat1 lon2 lat2) d (some R) = .ok (lon2, lat2) := by
  obtain ⟨k, hk⟩ := destination_eq (lon1 := lon1) (lon2 := lon2) hR.ne' h1 h2
  refine ⟨_, haversine_eq _ _ _ _ _, ?_⟩
  rw [abs_lt] at h
  have e1 : -π < rad lon2 := by
    rw [← deg_lt, deg_rad, deg_neg, deg_pi]
    exact h.1
  have e2 : rad lon2 < π := by
    rw [← deg_lt, deg_rad, deg_pi]
    exact h.2
  rw [hk, corangle_of_turns rfl e1 e2, deg_rad]

/-- The case of the docstring. -/
example : ∃ d, haversine 40 20 45 22 (some 1000) = .ok d ∧ destination 40 20 (bearing 40 20 45 22) d (some 1000) = .ok (45, 22) :=
  C17_exact 40 20 45 22 1000 (by norm_num) (by norm_num) (by norm_num) (by norm_num)

/-! ## C18 -/

/-- C18: the midpoint is at half the distance from both points. -/
theorem C18_half (lon1 lat1 lon2 lat2 R : ℝ) (h : pos lon1 lat1 ≠ -pos lon2 lat2) :
    ∃ d, haversine lon1 lat1 lon2 lat2 (some R) = .ok d ∧
      haversine lon1 lat1 (midpoint lon1 lat1 lon2 lat2).1 (midpoint lon1 lat1 lon2 lat2).2 (some R) = .ok (d / 2) ∧
      haversine lon2 lat2 (midpoint lon1 lat1 lon2 lat2).1 (midpoint lon1 lat1 lon2 lat2).2 (some R) = .ok (d / 2) := by
  obtain ⟨m1, m2⟩ := midpoint_arc h
  refine ⟨_, haversine_eq _ _ _ _ _, ?_, ?_⟩
  · rw [haversine_eq, m1]
    congr 1
    ring
  · rw [haversine_eq, m2]
    congr 1
    ring

/-- C18: swapping the arguments gives the same position. -/
theorem C18_symm (lon1 lat1 lon2 lat2 : ℝ) (h : pos lon1 lat1 ≠ -pos lon2 lat2) :
    pos (midpoint lon1 lat1 lon2 lat2).1 (midpoint lon1 lat1 lon2 lat2).2 = pos (midpoint lon2 lat2 lon1 lat1).1 (midpoint lon2 lat2 lon1 lat1).2 := by
  have hL : ‖pos lon1 lat1 + pos lon2 lat2‖ ≠ 0 := fun hc => h (eq_neg_of_add_eq_zero_left (norm_eq_zero.mp hc))
  have m1 := midpoint_sum lon1 lat1 lon2 lat2
  have m2 := midpoint_sum lon2 lat2 lon1 lat1
  rw [add_comm (pos lon2 lat2)] at m2
  exact smul_right_injective _ hL (m1.trans m2.symm)

/-- Points a quarter apart on the equator are not antipodal. -/
example : pos 0 0 ≠ -pos 90 0 := by
  intro h
  have := congrArg (fun v => v 0) h
  simp [pos] at this
  rw [show (90 : ℝ) * π / 180 = π / 2 by ring, cos_pi_div_two] at this
  norm_num at this

end Sph
end Coral
