import Verif.Model.Sphere
import Verif.Spec.Sphere
import Mathlib.Geometry.Euclidean.Angle.Unoriented.TriangleInequality

namespace Coral
namespace Proj

open Real

/-! ### corangle -/

theorem up_exists (n : ℕ) : ∀ a : ℝ, -π - 2 * π * n ≤ a → ∃ m, While (fun x => x < -π) (fun x => x + 2 * π) a m := by
  induction n with
  | zero =>
    intro a h
    exact ⟨a, .done (by push_cast at h; simp at h ⊢; linarith)⟩
  | succ n ih =>
    intro a h
    by_cases hc : a < -π
    · obtain ⟨m, hm⟩ := ih (a + 2 * π) (by push_cast at h; linarith)
      exact ⟨m, .step hc hm⟩
    · exact ⟨a, .done hc⟩

theorem down_exists (n : ℕ) : ∀ a : ℝ, a ≤ π + 2 * π * n → ∃ m, While (fun x => x > π) (fun x => x - 2 * π) a m := by
  induction n with
  | zero =>
    intro a h
    exact ⟨a, .done (by push_cast at h; simp at h ⊢; linarith)⟩
  | succ n ih =>
    intro a h
    by_cases hc : a > π
    · obtain ⟨m, hm⟩ := ih (a - 2 * π) (by push_cast at h; linarith)
      exact ⟨m, .step hc hm⟩
    · exact ⟨a, .done hc⟩

theorem corangle_exists (a : ℝ) : ∃ b, Corangle a b := by
  have hp := pi_pos
  obtain ⟨n, hn⟩ := exists_nat_gt ((-π - a) / (2 * π))
  have h1 : -π - 2 * π * n ≤ a := by
    rw [div_lt_iff₀ (by linarith)] at hn
    linarith
  obtain ⟨m, hm⟩ := up_exists n a h1
  obtain ⟨k, hk⟩ := exists_nat_gt ((m - π) / (2 * π))
  have h2 : m ≤ π + 2 * π * k := by
    rw [div_lt_iff₀ (by linarith)] at hk
    linarith
  obtain ⟨b, hb⟩ := down_exists k m h2
  exact ⟨b, m, hm, hb⟩

theorem corangle_spec (a : ℝ) : Corangle a (corangle a) := Classical.epsilon_spec (corangle_exists a)

theorem Corangle.det {a b c : ℝ} (h : Corangle a b) (h' : Corangle a c) : b = c := by
  obtain ⟨m, h1, h2⟩ := h
  obtain ⟨m', h1', h2'⟩ := h'
  have := h1.det h1'
  subst this
  exact h2.det h2'

theorem Corangle.turns {a b : ℝ} (h : Corangle a b) : ∃ k : ℤ, b = a + 2 * π * k := by
  obtain ⟨m, h1, h2⟩ := h
  have i1 : ∃ k : ℤ, m = a + 2 * π * k := h1.inv (I := fun x => ∃ k : ℤ, x = a + 2 * π * k)
    (fun s _ ⟨k, hk⟩ => ⟨k + 1, by push_cast; rw [hk]; ring⟩) ⟨0, by simp⟩
  exact h2.inv (I := fun x => ∃ k : ℤ, x = a + 2 * π * k)
    (fun s _ ⟨k, hk⟩ => ⟨k - 1, by push_cast; rw [hk]; ring⟩) i1

theorem Corangle.range {a b : ℝ} (h : Corangle a b) : -π ≤ b ∧ b ≤ π := by
  have hp := pi_pos
  obtain ⟨m, h1, h2⟩ := h
  have hm : -π ≤ m := not_lt.mp h1.not_cond
  refine ⟨h2.inv (I := fun x => -π ≤ x) (fun s hs _ => ?_) hm, not_lt.mp h2.not_cond⟩
  simp only [gt_iff_lt] at hs
  linarith

theorem Corangle.same {a b : ℝ} (h : Corangle a b) (h1 : -π ≤ a) (h2 : a ≤ π) : b = a :=
  h.det ⟨a, .done (not_lt.mpr h1), .done (not_lt.mpr h2)⟩

theorem corangle_turns (a : ℝ) : ∃ k : ℤ, corangle a = a + 2 * π * k := (corangle_spec a).turns

theorem corangle_range (a : ℝ) : -π ≤ corangle a ∧ corangle a ≤ π := (corangle_spec a).range

theorem corangle_same {a : ℝ} (h1 : -π ≤ a) (h2 : a ≤ π) : corangle a = a := (corangle_spec a).same h1 h2

/-- Two angles closer than a full turn that differ by full turns are equal. -/
theorem turns_zero {k : ℤ} {x y : ℝ} (h : x = y + 2 * π * k) (hd : |x - y| < 2 * π) : x = y := by
  have hp := pi_pos
  have : k = 0 := by
    by_contra hk
    have h1 : (1 : ℝ) ≤ |(k : ℝ)| := by
      have := Int.one_le_abs hk
      exact_mod_cast this
    have h2 : |x - y| = 2 * π * |(k : ℝ)| := by
      rw [h, add_sub_cancel_left, abs_mul, abs_of_pos (by linarith)]
    rw [h2] at hd
    nlinarith
  rw [h, this]
  simp

/-- The value is known from an angle strictly inside the range. -/
theorem corangle_of_turns {a b : ℝ} {k : ℤ} (h : a = b + 2 * π * k) (h1 : -π < b) (h2 : b < π) : corangle a = b := by
  obtain ⟨j, hj⟩ := corangle_turns a
  obtain ⟨r1, r2⟩ := corangle_range a
  refine turns_zero (k := k + j) (by rw [hj, h]; push_cast; ring) ?_
  rw [abs_lt]
  constructor <;> linarith

end Proj

namespace Sph

open Real Proj Spec InnerProductGeometry

theorem pos_apply (lon lat : ℝ) : pos lon lat = !₂[cos (rad lat) * cos (rad lon), cos (rad lat) * sin (rad lon), sin (rad lat)] := rfl

/-- The inner product. -/
noncomputable def dot (lon1 lat1 lon2 lat2 : ℝ) : ℝ :=
  cos (rad lat1) * cos (rad lat2) * cos (rad lon1 - rad lon2) + sin (rad lat1) * sin (rad lat2)

theorem inner_pos (lon1 lat1 lon2 lat2 : ℝ) : inner ℝ (pos lon1 lat1) (pos lon2 lat2) = dot lon1 lat1 lon2 lat2 := by
  rw [pos_apply, pos_apply, PiLp.inner_apply, Fin.sum_univ_three, dot, cos_sub]
  simp
  ring

theorem norm_pos (lon lat : ℝ) : ‖pos lon lat‖ = 1 := by
  have h : ‖pos lon lat‖ ^ 2 = 1 := by
    rw [← real_inner_self_eq_norm_sq, inner_pos, dot, sub_self, cos_zero]
    have := sin_sq_add_cos_sq (rad lat)
    nlinarith
  have h0 := norm_nonneg (pos lon lat)
  nlinarith

theorem cos_arc (lon1 lat1 lon2 lat2 : ℝ) : cos (arc lon1 lat1 lon2 lat2) = dot lon1 lat1 lon2 lat2 := by
  rw [arc, cos_angle, norm_pos, norm_pos, inner_pos]
  ring

theorem arc_nonneg (lon1 lat1 lon2 lat2 : ℝ) : 0 ≤ arc lon1 lat1 lon2 lat2 := angle_nonneg _ _

theorem arc_le_pi (lon1 lat1 lon2 lat2 : ℝ) : arc lon1 lat1 lon2 lat2 ≤ π := angle_le_pi _ _

theorem arc_comm (lon1 lat1 lon2 lat2 : ℝ) : arc lon1 lat1 lon2 lat2 = arc lon2 lat2 lon1 lat1 := angle_comm _ _

theorem dot_le (lon1 lat1 lon2 lat2 : ℝ) : -1 ≤ dot lon1 lat1 lon2 lat2 ∧ dot lon1 lat1 lon2 lat2 ≤ 1 := by
  rw [← cos_arc]
  exact ⟨neg_one_le_cos _, cos_le_one _⟩

theorem arc_eq_zero {lon1 lat1 lon2 lat2 : ℝ} : arc lon1 lat1 lon2 lat2 = 0 ↔ pos lon1 lat1 = pos lon2 lat2 := by
  rw [← inner_eq_one_iff_of_norm_eq_one (𝕜 := ℝ) (norm_pos lon1 lat1) (norm_pos lon2 lat2), inner_pos, ← cos_arc]
  constructor
  · intro h
    rw [h, cos_zero]
  · intro h
    have := injOn_cos ⟨arc_nonneg lon1 lat1 lon2 lat2, arc_le_pi _ _ _ _⟩ ⟨le_rfl, pi_pos.le⟩ (h.trans cos_zero.symm)
    exact this

theorem hav_dot (lon1 lat1 lon2 lat2 : ℝ) : hav lon1 lat1 lon2 lat2 = (1 - dot lon1 lat1 lon2 lat2) / 2 := by
  have h1 : ∀ x : ℝ, sin (x / 2) * sin (x / 2) = (1 - cos x) / 2 := by
    intro x
    have h1 := cos_sq (x / 2)
    have h2 := sin_sq_add_cos_sq (x / 2)
    rw [show 2 * (x / 2) = x by ring] at h1
    nlinarith
  rw [hav, h1, h1, dot, rad_sub, rad_sub, cos_sub (rad lat2), ← cos_neg (rad lon2 - rad lon1), neg_sub]
  ring

theorem sin_half_arc (lon1 lat1 lon2 lat2 : ℝ) : hav lon1 lat1 lon2 lat2 = sin (arc lon1 lat1 lon2 lat2 / 2) ^ 2 := by
  rw [hav_dot, ← cos_arc, sin_sq, cos_sq, show 2 * (arc lon1 lat1 lon2 lat2 / 2) = arc lon1 lat1 lon2 lat2 by ring]
  ring

theorem haversine_eq (lon1 lat1 lon2 lat2 R : ℝ) : haversine lon1 lat1 lon2 lat2 (some R) = .ok (R * arc lon1 lat1 lon2 lat2) := by
  have h0 := arc_nonneg lon1 lat1 lon2 lat2
  have h1 := arc_le_pi lon1 lat1 lon2 lat2
  have hs := sin_half_arc lon1 lat1 lon2 lat2
  have hc : 1 - hav lon1 lat1 lon2 lat2 = cos (arc lon1 lat1 lon2 lat2 / 2) ^ 2 := by
    rw [hs, ← cos_sq']
  have hs0 : 0 ≤ sin (arc lon1 lat1 lon2 lat2 / 2) := sin_nonneg_of_nonneg_of_le_pi (by linarith) (by linarith)
  have hc0 : 0 ≤ cos (arc lon1 lat1 lon2 lat2 / 2) := cos_nonneg_of_neg_pi_div_two_le_of_le (by linarith) (by linarith)
  have hat : atan2 (sin (arc lon1 lat1 lon2 lat2 / 2)) (cos (arc lon1 lat1 lon2 lat2 / 2)) = arc lon1 lat1 lon2 lat2 / 2 := by
    have := atan2_polar (ρ := 1) (θ := arc lon1 lat1 lon2 lat2 / 2) one_pos (by linarith [pi_pos]) (by linarith [pi_pos])
    rwa [one_mul, one_mul] at this
  rw [haversine, hc, hs, rsqrt_ok (sq_nonneg _), rsqrt_ok (sq_nonneg _), sqrt_sq hs0, sqrt_sq hc0]
  change Except.ok _ = _
  rw [hat]
  congr 1
  ring

/-! ### bearing and destination -/

theorem sin_arc_sq (lon1 lat1 lon2 lat2 : ℝ) :
    (cos (rad lat1) * sin (rad lat2) - sin (rad lat1) * cos (rad lat2) * cos (rad (lon1 - lon2))) ^ 2 +
      (sin (rad (lon1 - lon2)) * cos (rad lat2)) ^ 2 = sin (arc lon1 lat1 lon2 lat2) ^ 2 := by
  rw [sin_sq (arc _ _ _ _), cos_arc, dot, rad_sub]
  have h1 := sin_sq_add_cos_sq (rad lat1)
  have h2 := sin_sq_add_cos_sq (rad lat2)
  have h3 := sin_sq_add_cos_sq (rad lon1 - rad lon2)
  generalize cos (rad lat1) = c1 at *
  generalize sin (rad lat1) = s1 at *
  generalize cos (rad lat2) = c2 at *
  generalize sin (rad lat2) = s2 at *
  generalize cos (rad lon1 - rad lon2) = C at *
  generalize sin (rad lon1 - rad lon2) = S at *
  linear_combination (s2 ^ 2 + c2 ^ 2 * C ^ 2) * h1 + h2 + c2 ^ 2 * h3

theorem bearing_cos (lon1 lat1 lon2 lat2 : ℝ) : sin (arc lon1 lat1 lon2 lat2) * cos (rad (bearing lon1 lat1 lon2 lat2)) =
    cos (rad lat1) * sin (rad lat2) - sin (rad lat1) * cos (rad lat2) * cos (rad (lon1 - lon2)) := by
  have h0 : 0 ≤ sin (arc lon1 lat1 lon2 lat2) := sin_nonneg_of_nonneg_of_le_pi (arc_nonneg _ _ _ _) (arc_le_pi _ _ _ _)
  have := atan2_cos (sin (rad (lon1 - lon2)) * cos (rad lat2))
    (cos (rad lat1) * sin (rad lat2) - sin (rad lat1) * cos (rad lat2) * cos (rad (lon1 - lon2)))
  rw [sin_arc_sq, sqrt_sq h0] at this
  rw [bearing, rad_deg]
  exact this

theorem bearing_sin (lon1 lat1 lon2 lat2 : ℝ) : sin (arc lon1 lat1 lon2 lat2) * sin (rad (bearing lon1 lat1 lon2 lat2)) =
    sin (rad (lon1 - lon2)) * cos (rad lat2) := by
  have h0 : 0 ≤ sin (arc lon1 lat1 lon2 lat2) := sin_nonneg_of_nonneg_of_le_pi (arc_nonneg _ _ _ _) (arc_le_pi _ _ _ _)
  have := atan2_sin (sin (rad (lon1 - lon2)) * cos (rad lat2))
    (cos (rad lat1) * sin (rad lat2) - sin (rad lat1) * cos (rad lat2) * cos (rad (lon1 - lon2)))
  rw [sin_arc_sq, sqrt_sq h0] at this
  rw [bearing, rad_deg]
  exact this

theorem destination_eq {lon1 lat1 lon2 lat2 R : ℝ} (hR : R ≠ 0) (h1 : |lat1| < 90) (h2 : |lat2| < 90) :
    ∃ k : ℤ, destination lon1 lat1 (bearing lon1 lat1 lon2 lat2) (R * arc lon1 lat1 lon2 lat2) (some R) =
      .ok (deg (corangle (rad lon2 + 2 * π * k)), lat2) := by
  rw [abs_lt] at h1 h2
  have r1 : rad (-90) < rad lat1 := rad_lt.mpr h1.1
  have r2 : rad lat1 < rad 90 := rad_lt.mpr h1.2
  have r3 : rad (-90) < rad lat2 := rad_lt.mpr h2.1
  have r4 : rad lat2 < rad 90 := rad_lt.mpr h2.2
  rw [rad_90] at r2 r4
  rw [rad_neg_90] at r1 r3
  have c1 : 0 < cos (rad lat1) := cos_pos_of_mem_Ioo ⟨r1, r2⟩
  have c2 : 0 < cos (rad lat2) := cos_pos_of_mem_Ioo ⟨r3, r4⟩
  have hc := bearing_cos lon1 lat1 lon2 lat2
  have hs := bearing_sin lon1 lat1 lon2 lat2
  have hd := cos_arc lon1 lat1 lon2 lat2
  have hlat : sin (rad lat1) * cos (arc lon1 lat1 lon2 lat2) + cos (rad lat1) * sin (arc lon1 lat1 lon2 lat2) * cos (rad (bearing lon1 lat1 lon2 lat2)) = sin (rad lat2) := by
    rw [mul_assoc (cos (rad lat1)), hc, hd, dot, rad_sub]
    linear_combination sin (rad lat2) * sin_sq_add_cos_sq (rad lat1)
  obtain ⟨k, hk⟩ := atan2_mod (ρ := cos (rad lat1) * cos (rad lat2)) (θ := rad lon1 - rad lon2) (mul_pos c1 c2)
  refine ⟨-k, ?_⟩
  have hq : R * arc lon1 lat1 lon2 lat2 / R = arc lon1 lat1 lon2 lat2 := by field_simp
  have e1 : sin (rad (bearing lon1 lat1 lon2 lat2)) * sin (arc lon1 lat1 lon2 lat2) * cos (rad lat1) = cos (rad lat1) * cos (rad lat2) * sin (rad lon1 - rad lon2) := by
    rw [mul_comm (sin (rad (bearing _ _ _ _))), hs, rad_sub]
    ring
  have e2 : cos (arc lon1 lat1 lon2 lat2) - sin (rad lat1) * sin (rad lat2) = cos (rad lat1) * cos (rad lat2) * cos (rad lon1 - rad lon2) := by
    rw [hd, dot]
    ring
  simp only [destination, radius]
  change (rdiv _ R >>= _) = _
  rw [rdiv_ok hR, hq]
  change (rasin _ >>= _) = _
  rw [hlat, rasin_sin r3.le r4.le]
  change Except.ok _ = _
  rw [e1, e2, hk, deg_rad]
  congr 4
  push_cast
  ring

/-! ### midpoint -/

theorem midpoint_sum (lon1 lat1 lon2 lat2 : ℝ) :
    ‖pos lon1 lat1 + pos lon2 lat2‖ • pos (midpoint lon1 lat1 lon2 lat2).1 (midpoint lon1 lat1 lon2 lat2).2 = pos lon1 lat1 + pos lon2 lat2 := by
  have a1 := atan2_cos (cos (rad lat2) * sin (rad (lon2 - lon1))) (cos (rad lat1) + cos (rad lat2) * cos (rad (lon2 - lon1)))
  have a2 := atan2_sin (cos (rad lat2) * sin (rad (lon2 - lon1))) (cos (rad lat1) + cos (rad lat2) * cos (rad (lon2 - lon1)))
  set ρ := √((cos (rad lat1) + cos (rad lat2) * cos (rad (lon2 - lon1))) ^ 2 + (cos (rad lat2) * sin (rad (lon2 - lon1))) ^ 2) with hρ
  have hρ2 : ρ ^ 2 = (cos (rad lat1) + cos (rad lat2) * cos (rad (lon2 - lon1))) ^ 2 + (cos (rad lat2) * sin (rad (lon2 - lon1))) ^ 2 :=
    sq_sqrt (by positivity)
  have b1 := atan2_cos (sin (rad lat1) + sin (rad lat2)) ρ
  have b2 := atan2_sin (sin (rad lat1) + sin (rad lat2)) ρ
  have hn : √(ρ ^ 2 + (sin (rad lat1) + sin (rad lat2)) ^ 2) = ‖pos lon1 lat1 + pos lon2 lat2‖ := by
    rw [hρ2, sqrt_eq_iff_mul_self_eq (by positivity) (norm_nonneg _), ← sq, norm_add_sq_real, norm_pos, norm_pos, inner_pos, dot, rad_sub,
      ← cos_neg (rad lon1 - rad lon2), neg_sub]
    have h1 := sin_sq_add_cos_sq (rad lat1)
    have h2 := sin_sq_add_cos_sq (rad lat2)
    have h3 := sin_sq_add_cos_sq (rad lon2 - rad lon1)
    linear_combination h1 + h2 + cos (rad lat2) ^ 2 * h3
  rw [hn] at b1 b2
  have hm : midpoint lon1 lat1 lon2 lat2 = (deg (rad lon1 + atan2 (cos (rad lat2) * sin (rad (lon2 - lon1))) (cos (rad lat1) + cos (rad lat2) * cos (rad (lon2 - lon1)))),
      deg (atan2 (sin (rad lat1) + sin (rad lat2)) ρ)) := by
    simp only [midpoint]
    rw [hρ, sq, sq]
  rw [hm]
  simp only [pos_apply, rad_deg]
  rw [cos_add, sin_add]
  generalize atan2 (cos (rad lat2) * sin (rad (lon2 - lon1))) (cos (rad lat1) + cos (rad lat2) * cos (rad (lon2 - lon1))) = α at *
  generalize atan2 (sin (rad lat1) + sin (rad lat2)) ρ = β at *
  rw [pos_apply, pos_apply] at b1 b2
  generalize ‖!₂[cos (rad lat1) * cos (rad lon1), cos (rad lat1) * sin (rad lon1), sin (rad lat1)] + !₂[cos (rad lat2) * cos (rad lon2), cos (rad lat2) * sin (rad lon2), sin (rad lat2)]‖ = L at *
  have e1 : cos (rad lon2) = cos (rad lon1) * cos (rad (lon2 - lon1)) - sin (rad lon1) * sin (rad (lon2 - lon1)) := by
    rw [← cos_add, rad_sub]
    congr 1
    ring
  have e2 : sin (rad lon2) = sin (rad lon1) * cos (rad (lon2 - lon1)) + cos (rad lon1) * sin (rad (lon2 - lon1)) := by
    rw [← sin_add, rad_sub]
    congr 1
    ring
  rw [e1, e2]
  ext i
  fin_cases i
  · simp
    linear_combination (cos (rad lon1) * cos α - sin (rad lon1) * sin α) * b1 + cos (rad lon1) * a1 - sin (rad lon1) * a2
  · simp
    linear_combination (sin (rad lon1) * cos α + cos (rad lon1) * sin α) * b1 + sin (rad lon1) * a1 + cos (rad lon1) * a2
  · simp
    linear_combination b2

theorem midpoint_arc {lon1 lat1 lon2 lat2 : ℝ} (h : pos lon1 lat1 ≠ -pos lon2 lat2) :
    arc lon1 lat1 (midpoint lon1 lat1 lon2 lat2).1 (midpoint lon1 lat1 lon2 lat2).2 = arc lon1 lat1 lon2 lat2 / 2 ∧
      arc lon2 lat2 (midpoint lon1 lat1 lon2 lat2).1 (midpoint lon1 lat1 lon2 lat2).2 = arc lon1 lat1 lon2 lat2 / 2 := by
  have hL : 0 < ‖pos lon1 lat1 + pos lon2 lat2‖ := norm_pos_iff.mpr fun hc => h (eq_neg_of_add_eq_zero_left hc)
  have hm := midpoint_sum lon1 lat1 lon2 lat2
  have g0 := arc_nonneg lon1 lat1 lon2 lat2
  have g1 := arc_le_pi lon1 lat1 lon2 lat2
  have hc0 : 0 ≤ cos (arc lon1 lat1 lon2 lat2 / 2) := cos_nonneg_of_neg_pi_div_two_le_of_le (by linarith) (by linarith)
  have hc2 : cos (arc lon1 lat1 lon2 lat2 / 2) ^ 2 = (1 + dot lon1 lat1 lon2 lat2) / 2 := by
    rw [cos_sq, show 2 * (arc lon1 lat1 lon2 lat2 / 2) = arc lon1 lat1 lon2 lat2 by ring, cos_arc]
    ring
  have hL2 : ‖pos lon1 lat1 + pos lon2 lat2‖ = 2 * cos (arc lon1 lat1 lon2 lat2 / 2) := by
    have : ‖pos lon1 lat1 + pos lon2 lat2‖ ^ 2 = (2 * cos (arc lon1 lat1 lon2 lat2 / 2)) ^ 2 := by
      rw [norm_add_sq_real, norm_pos, norm_pos, inner_pos, mul_pow, hc2]
      ring
    exact (sq_eq_sq₀ hL.le (by linarith)).mp this
  have key : ∀ lon lat, inner ℝ (pos lon lat) (pos lon1 lat1 + pos lon2 lat2) = 1 + dot lon1 lat1 lon2 lat2 →
      arc lon lat (midpoint lon1 lat1 lon2 lat2).1 (midpoint lon1 lat1 lon2 lat2).2 = arc lon1 lat1 lon2 lat2 / 2 := by
    intro lon lat hi
    rw [← hm, real_inner_smul_right, inner_pos, ← cos_arc, hL2] at hi
    refine injOn_cos ⟨arc_nonneg _ _ _ _, arc_le_pi _ _ _ _⟩ ⟨by linarith, by linarith⟩ ?_
    have : 1 + dot lon1 lat1 lon2 lat2 = 2 * cos (arc lon1 lat1 lon2 lat2 / 2) * cos (arc lon1 lat1 lon2 lat2 / 2) := by
      linear_combination -2 * hc2
    rw [this] at hi
    refine mul_left_cancel₀ ?_ hi
    rw [← hL2]
    exact hL.ne'
  constructor
  · apply key
    rw [inner_add_right, real_inner_self_eq_norm_sq, norm_pos, inner_pos]
    ring
  · apply key
    rw [inner_add_right, real_inner_self_eq_norm_sq, norm_pos, real_inner_comm, inner_pos]
    ring

end Sph
end Coral
