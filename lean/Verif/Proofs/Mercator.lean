import Verif.Proofs.Sphere

namespace Coral
namespace Proj

open Real

theorem rad_bounds {lat : ℝ} (h : |lat| < 90) : -(π / 2) < rad lat ∧ rad lat < π / 2 := by
  rw [abs_lt] at h
  rw [← rad_neg_90, ← rad_90, rad_lt, rad_lt]
  exact h

theorem rad_bounds_le {lat : ℝ} (h : |lat| ≤ 90) : -(π / 2) ≤ rad lat ∧ rad lat ≤ π / 2 := by
  rw [abs_le] at h
  rw [← rad_neg_90, ← rad_90, rad_le, rad_le]
  exact h

theorem cos_rad_pos {lat : ℝ} (h : |lat| < 90) : 0 < cos (rad lat) := cos_pos_of_mem_Ioo (rad_bounds h)

/-- The half-angle formula behind the Mercator projection. -/
theorem half_angle {θ : ℝ} (h1 : -(π / 2) < θ) (h2 : θ < π / 2) :
    cos (π / 4 + θ / 2) ≠ 0 ∧ tan (π / 4 + θ / 2) = (1 + sin θ) / cos θ := by
  have hc : 0 < cos θ := cos_pos_of_mem_Ioo ⟨h1, h2⟩
  have hu : 0 < cos (π / 4 + θ / 2) := cos_pos_of_mem_Ioo ⟨by linarith, by linarith⟩
  refine ⟨hu.ne', ?_⟩
  have e1 : sin θ = 2 * sin (π / 4 + θ / 2) ^ 2 - 1 := by
    have h := cos_two_mul' (π / 4 + θ / 2)
    have h' := sin_sq_add_cos_sq (π / 4 + θ / 2)
    rw [show 2 * (π / 4 + θ / 2) = θ + π / 2 by ring, cos_add_pi_div_two] at h
    linarith
  have e2 : cos θ = 2 * sin (π / 4 + θ / 2) * cos (π / 4 + θ / 2) := by
    rw [← sin_two_mul, show 2 * (π / 4 + θ / 2) = θ + π / 2 by ring, sin_add_pi_div_two]
  rw [tan_eq_sin_div_cos, div_eq_div_iff hu.ne' hc.ne', e1, e2]
  ring

theorem one_add_sin_pos {θ : ℝ} (h : 0 < cos θ) : 0 < 1 + sin θ := by
  have := sin_sq_add_cos_sq θ
  nlinarith [neg_one_le_sin θ, sin_le_one θ]

theorem one_sub_sin_pos {θ : ℝ} (h : 0 < cos θ) : 0 < 1 - sin θ := by
  have := sin_sq_add_cos_sq θ
  nlinarith [neg_one_le_sin θ, sin_le_one θ]

theorem sinh_log_tan {θ : ℝ} (h : 0 < cos θ) : sinh (log ((1 + sin θ) / cos θ)) = tan θ := by
  have hs := one_add_sin_pos h
  rw [sinh_log (div_pos hs h), inv_div, tan_eq_sin_div_cos]
  field_simp
  have := sin_sq_add_cos_sq θ
  linear_combination -this

theorem arctan_sinh (y : ℝ) : (1 + sin (arctan (sinh y))) / cos (arctan (sinh y)) = exp y := by
  have h : √(1 + sinh y ^ 2) = cosh y := by
    rw [← cosh_sq', sqrt_sq (cosh_pos y).le]
  rw [sin_arctan, cos_arctan, h, ← cosh_add_sinh]
  have := (cosh_pos y).ne'
  field_simp

/-- Longitudes: through `corangle` and back. -/
theorem corangle_back (a l0 : ℝ) : ∃ k : ℤ, corangle (corangle (a - l0) + l0) = a + 2 * π * k := by
  obtain ⟨j, hj⟩ := corangle_turns (a - l0)
  obtain ⟨i, hi⟩ := corangle_turns (corangle (a - l0) + l0)
  refine ⟨j + i, ?_⟩
  rw [hi, hj]
  push_cast
  ring

theorem corangle_forth {a l0 : ℝ} (h1 : -π < a) (h2 : a < π) : corangle (corangle (a + l0) - l0) = a := by
  obtain ⟨j, hj⟩ := corangle_turns (a + l0)
  refine corangle_of_turns (k := j) ?_ h1 h2
  rw [hj]
  ring

theorem deg_turns_of {x y : ℝ} {k : ℤ} (h : x = rad y + 2 * π * k) : deg x = y + 360 * k := by
  rw [h, deg_add, deg_rad, deg_turns]

theorem Mercator.geo2rect_eq (p : Sphere) (lon : ℝ) {lat : ℝ} (h : |lat| < 90) :
    Mercator.geo2rect p lon lat = .ok (p.r * corangle (rad lon - p.lon0), p.r * log ((1 + sin (rad lat)) / cos (rad lat))) := by
  obtain ⟨h1, h2⟩ := rad_bounds h
  obtain ⟨hc, ht⟩ := half_angle h1 h2
  have hp := cos_rad_pos h
  have hs : lat ≠ -90 := by
    rw [abs_lt] at h
    exact h.1.ne'
  rw [Mercator.geo2rect, if_neg hs, rtan_ok hc, ht]
  change (rlog _ >>= _) = _
  rw [rlog_ok (div_pos (one_add_sin_pos hp) hp)]
  rfl

theorem Mercator.back (p : Sphere) (hr : p.r ≠ 0) (lon : ℝ) {lat : ℝ} (h : |lat| < 90) :
    ∃ x y, Mercator.geo2rect p lon lat = .ok (x, y) ∧ ∃ k : ℤ, Mercator.rect2geo p x y = .ok (lon + 360 * k, lat) ∧
      |lon + 360 * k| ≤ 180 := by
  obtain ⟨h1, h2⟩ := rad_bounds h
  have hp := cos_rad_pos h
  refine ⟨_, _, Mercator.geo2rect_eq p lon h, ?_⟩
  obtain ⟨k, hk⟩ := corangle_back (rad lon) p.lon0
  refine ⟨k, ?_, ?_⟩
  · rw [Mercator.rect2geo, rdiv_ok hr, rdiv_ok hr, mul_div_cancel_left₀ _ hr, mul_div_cancel_left₀ _ hr]
    change Except.ok _ = _
    rw [sinh_log_tan hp, arctan_tan h1 h2, deg_rad, deg_turns_of hk]
  · rw [← deg_turns_of hk, abs_le]
    obtain ⟨r1, r2⟩ := corangle_range (corangle (rad lon - p.lon0) + p.lon0)
    rw [← deg_pi, ← deg_neg, deg_le, deg_le]
    exact ⟨r1, r2⟩

theorem Mercator.forth (p : Sphere) (hr : 0 < p.r) {x : ℝ} (y : ℝ) (h : |x| < π * p.r) :
    ∃ lon lat, Mercator.rect2geo p x y = .ok (lon, lat) ∧ |lat| < 90 ∧ Mercator.geo2rect p lon lat = .ok (x, y) := by
  have hlat : |deg (arctan (sinh (y / p.r)))| < 90 := by
    rw [abs_lt, ← deg_rad 90, ← deg_neg, deg_lt, deg_lt, rad_90]
    exact ⟨neg_pi_div_two_lt_arctan _, arctan_lt_pi_div_two _⟩
  refine ⟨deg (corangle (x / p.r + p.lon0)), _, ?_, hlat, ?_⟩
  · rw [Mercator.rect2geo, rdiv_ok hr.ne', rdiv_ok hr.ne']
    rfl
  · rw [abs_lt] at h
    have b1 : -π < x / p.r := by
      rw [lt_div_iff₀ hr]
      linarith
    have b2 : x / p.r < π := by
      rw [div_lt_iff₀ hr]
      linarith
    rw [Mercator.geo2rect_eq p _ hlat, rad_deg, rad_deg, arctan_sinh, log_exp, corangle_forth b1 b2]
    have := hr.ne'
    congr 2 <;> field_simp

/-! ### EMercator -/

theorem EMercator.factor_pos {e : ℝ} (h0 : 0 ≤ e) (h1 : e < 1) (l : ℝ) : 0 < EMercator.factor e l := by
  have a := neg_one_le_sin l
  have b := sin_le_one l
  refine rpow_pos_of_pos (div_pos ?_ ?_) _ <;> nlinarith

theorem EMercator.loop_fix {e t lat : ℝ} (h : EMercator.Loop e t lat) : lat = EMercator.improve e t lat := by
  have key : ∀ {s u : ℝ × Bool}, While (fun s : ℝ × Bool => s.2 = false)
      (fun s => (EMercator.improve e t s.1, decide (EMercator.improve e t s.1 = s.1))) s u →
      (s.2 = true → s.1 = EMercator.improve e t s.1) → u.1 = EMercator.improve e t u.1 := by
    intro s u hw
    induction hw with
    | done hn => exact fun h => h (by simpa using hn)
    | step _ _ ih =>
      intro _
      refine ih fun hd => ?_
      have := of_decide_eq_true hd
      simp only [this]
  exact key h (by simp)

theorem EMercator.forth_fix (p : Spheroid) (ha : 0 < p.ell.a) (h0 : 0 ≤ p.ell.e) (h1 : p.ell.e < 1) {x y : ℝ} (hx : |x| < π * p.ell.a)
    {l : ℝ} (hf : l = EMercator.improve p.ell.e (exp (-y / p.ell.a)) l) :
    |deg l| < 90 ∧ EMercator.geo2rect p (deg (corangle (x / p.ell.a + p.lon0))) (deg l) = .ok (x, y) := by
  have hF := EMercator.factor_pos h0 h1 l
  have hq : 0 < exp (-y / p.ell.a) * EMercator.factor p.ell.e l := mul_pos (exp_pos _) hF
  have at0 : 0 < arctan (exp (-y / p.ell.a) * EMercator.factor p.ell.e l) := arctan_pos.mpr hq
  have at1 := arctan_lt_pi_div_two (exp (-y / p.ell.a) * EMercator.factor p.ell.e l)
  rw [EMercator.improve] at hf
  have l1 : -(π / 2) < l := by linarith
  have l2 : l < π / 2 := by linarith
  have hlat : |deg l| < 90 := by
    rw [abs_lt, ← deg_rad 90, ← deg_neg, deg_lt, deg_lt, rad_90]
    exact ⟨l1, l2⟩
  refine ⟨hlat, ?_⟩
  have hne : deg l ≠ -90 := by
    rw [abs_lt] at hlat
    exact hlat.1.ne'
  obtain ⟨hc, ht⟩ := half_angle l1 l2
  have ht' : tan (π / 4 + l / 2) = (exp (-y / p.ell.a) * EMercator.factor p.ell.e l)⁻¹ := by
    have : π / 4 + l / 2 = π / 2 - arctan (exp (-y / p.ell.a) * EMercator.factor p.ell.e l) := by linarith
    rw [this, tan_pi_div_two_sub, tan_arctan]
  have ht2 : tan (π / 4 + l / 2) * EMercator.factor p.ell.e l = exp (y / p.ell.a) := by
    rw [ht', mul_inv, mul_assoc, inv_mul_cancel₀ hF.ne', mul_one, ← exp_neg]
    congr 1
    ring
  rw [abs_lt] at hx
  have b1 : -π < x / p.ell.a := by
    rw [lt_div_iff₀ ha]
    linarith
  have b2 : x / p.ell.a < π := by
    rw [div_lt_iff₀ ha]
    linarith
  rw [EMercator.geo2rect, if_neg hne, rad_deg, rad_deg, rtan_ok hc]
  change (rlog _ >>= _) = _
  rw [ht2, rlog_ok (exp_pos _), log_exp, corangle_forth b1 b2]
  change Except.ok _ = _
  congr 2 <;> field_simp

theorem EMercator.forth (p : Spheroid) (ha : 0 < p.ell.a) (h0 : 0 ≤ p.ell.e) (h1 : p.ell.e < 1) {x y : ℝ} (hx : |x| < π * p.ell.a)
    {lon lat : ℝ} (h : EMercator.Rect2geo p x y (.ok (lon, lat))) : |lat| < 90 ∧ EMercator.geo2rect p lon lat = .ok (x, y) := by
  cases h with
  | ok _ hl => exact EMercator.forth_fix p ha h0 h1 hx (EMercator.loop_fix hl)

/-! ### TransMercator -/

theorem TransMercator.back (p : Sphere) (hr : p.r ≠ 0) (lon : ℝ) {lat : ℝ} (h : |lat| < 90)
    (hb : |cos (rad lat) * sin (rad lon - p.lon0)| < 1) :
    ∃ x y, TransMercator.geo2rect p lon lat = .ok (x, y) ∧ ∃ k : ℤ, TransMercator.rect2geo p x y = .ok (lon + 360 * k, lat) := by
  obtain ⟨h1, h2⟩ := rad_bounds h
  have hc := cos_rad_pos h
  rw [abs_lt] at hb
  set φ := rad lat with hφ
  set D := rad lon - p.lon0 with hD
  set b := cos φ * sin D with hbd
  have hg : TransMercator.geo2rect p lon lat = .ok (p.r * artanh b, p.r * corangle (atan2 (tan φ) (cos D) - p.lat0)) := by
    rw [TransMercator.geo2rect]
    simp only [← hφ, ← hD, ← hbd]
    rw [if_neg (by rintro (e | e) <;> rw [e] at hb <;> norm_num at hb), ratanh_ok hb.1 hb.2, rtan_ok hc.ne']
    rfl
  refine ⟨_, _, hg, ?_⟩
  have hsc := sin_sq_add_cos_sq φ
  have hSC := sin_sq_add_cos_sq D
  have ht : tan φ * cos φ = sin φ := tan_mul_cos hc.ne'
  have a1 := atan2_cos (tan φ) (cos D)
  have a2 := atan2_sin (tan φ) (cos D)
  set ρ := √(cos D ^ 2 + tan φ ^ 2) with hρ
  have hρ2 : ρ ^ 2 = cos D ^ 2 + tan φ ^ 2 := sq_sqrt (by positivity)
  have hw : 1 - b ^ 2 = (cos φ * ρ) ^ 2 := by
    rw [mul_pow (cos φ) ρ, hρ2, hbd]
    linear_combination (-(tan φ * cos φ) - sin φ) * ht - hsc - cos φ ^ 2 * hSC
  have hw0 : 0 < 1 - b ^ 2 := by nlinarith
  have hρ0 : 0 < ρ := by
    rcases (sqrt_nonneg (cos D ^ 2 + tan φ ^ 2)).lt_or_eq with h | h
    · exact h
    · rw [hw, hρ, ← h] at hw0
      simp at hw0
  have hsq : √(1 - b ^ 2) = cos φ * ρ := by rw [hw, sqrt_sq (mul_pos hc hρ0).le]
  obtain ⟨j, hj⟩ := corangle_turns (atan2 (tan φ) (cos D) - p.lat0)
  have hd : corangle (atan2 (tan φ) (cos D) - p.lat0) + p.lat0 = atan2 (tan φ) (cos D) + 2 * π * j := by
    rw [hj]
    ring
  have hcd : cos (corangle (atan2 (tan φ) (cos D) - p.lat0) + p.lat0) = ρ⁻¹ * cos D := by
    rw [hd, cos_turns, eq_inv_mul_iff_mul_eq₀ hρ0.ne', a1]
  have hsd : sin (corangle (atan2 (tan φ) (cos D) - p.lat0) + p.lat0) = ρ⁻¹ * tan φ := by
    rw [hd, sin_turns, eq_inv_mul_iff_mul_eq₀ hρ0.ne', a2]
  have hsh : sinh (artanh b) = ρ⁻¹ * sin D := by
    rw [sinh_artanh ⟨hb.1, hb.2⟩, hsq, hbd]
    field_simp
  have hq : sin (corangle (atan2 (tan φ) (cos D) - p.lat0) + p.lat0) / cosh (artanh b) = sin φ := by
    rw [hsd, cosh_artanh ⟨hb.1, hb.2⟩, hsq, ← ht]
    field_simp
  obtain ⟨k, hk⟩ := atan2_mod (ρ := ρ⁻¹) (θ := D) (inv_pos.mpr hρ0)
  refine ⟨k, ?_⟩
  rw [TransMercator.rect2geo, rdiv_ok hr, rdiv_ok hr, mul_div_cancel_left₀ _ hr, mul_div_cancel_left₀ _ hr]
  change (rdiv _ (cosh (artanh b)) >>= _) = _
  rw [rdiv_ok (cosh_pos _).ne', hq]
  change (rasin (sin φ) >>= _) = _
  rw [rasin_sin h1.le h2.le]
  change Except.ok _ = _
  rw [hsh, hcd, hk, hφ, deg_rad, hD, show p.lon0 + (rad lon - p.lon0 + 2 * π * k) = rad lon + 2 * π * k by ring, deg_turns_of rfl]

/-! ### ObliqMercator -/

theorem ObliqMercator.rotate (c s cφ sφ S C : ℝ) (h0 : s ^ 2 + c ^ 2 = 1) (h1 : sφ ^ 2 + cφ ^ 2 = 1) (h2 : S ^ 2 + C ^ 2 = 1) :
    (s * sφ - c * cφ * S) ^ 2 + (sφ * c + s * (cφ * S)) ^ 2 + (cφ * C) ^ 2 = 1 := by
  linear_combination (sφ ^ 2 + cφ ^ 2 * S ^ 2) * h0 + h1 + cφ ^ 2 * h2

/-- The forward formulas off the meridians a quarter away; `±` is the side. -/
theorem ObliqMercator.geo2rect_eq (p : Sphere) (lon : ℝ) {lat : ℝ} (h : |lat| < 90) (hD : cos (rad lon - p.lon0) ≠ 0) :
    let D := rad lon - p.lon0
    let a := sin p.lat0 * sin (rad lat) - cos p.lat0 * cos (rad lat) * sin D
    let V := sin (rad lat) * cos p.lat0 + sin p.lat0 * (cos (rad lat) * sin D);
    -1 < a ∧ a < 1 ∧ ObliqMercator.geo2rect p lon lat = .ok (p.r * arctan (V / (cos (rad lat) * cos D)), p.r * artanh a) := by
  intro D a V
  have hc := cos_rad_pos h
  have hrot : a ^ 2 + V ^ 2 + (cos (rad lat) * cos D) ^ 2 = 1 :=
    ObliqMercator.rotate _ _ _ _ _ _ (sin_sq_add_cos_sq p.lat0) (sin_sq_add_cos_sq (rad lat)) (sin_sq_add_cos_sq D)
  have hH : 0 < (cos (rad lat) * cos D) ^ 2 := by
    have := mul_ne_zero hc.ne' hD
    positivity
  have ha : |a| < 1 := by
    rw [← sq_lt_one_iff_abs_lt_one]
    nlinarith [sq_nonneg V]
  rw [abs_lt] at ha
  refine ⟨ha.1, ha.2, ?_⟩
  have hv : (tan (rad lat) * cos p.lat0 + sin p.lat0 * sin D) / cos D = V / (cos (rad lat) * cos D) := by
    rw [tan_eq_sin_div_cos]
    have : cos D ≠ 0 := hD
    simp only [V]
    field_simp
  rw [ObliqMercator.geo2rect, rtan_ok hc.ne']
  change (rdiv (tan (rad lat) * cos p.lat0 + sin p.lat0 * sin D) (cos D) >>= _) = _
  rw [rdiv_ok hD, hv]
  change (ratanh a >>= _) = _
  rw [ratanh_ok ha.1 ha.2]
  rfl

theorem ObliqMercator.back (p : Sphere) (hr : p.r ≠ 0) (lon : ℝ) {lat : ℝ} (h : |lat| < 90) (hD : 0 < cos (rad lon - p.lon0)) :
    ∃ x y, ObliqMercator.geo2rect p lon lat = .ok (x, y) ∧ ∃ k : ℤ, ObliqMercator.rect2geo p x y = .ok (lon + 360 * k, lat) := by
  obtain ⟨h1, h2⟩ := rad_bounds h
  have hc := cos_rad_pos h
  obtain ⟨ha1, ha2, hg⟩ := ObliqMercator.geo2rect_eq p lon h hD.ne'
  refine ⟨_, _, hg, ?_⟩
  set D := rad lon - p.lon0 with hDd
  set a := sin p.lat0 * sin (rad lat) - cos p.lat0 * cos (rad lat) * sin D with had
  set V := sin (rad lat) * cos p.lat0 + sin p.lat0 * (cos (rad lat) * sin D) with hVd
  set H := cos (rad lat) * cos D with hHd
  have hH : 0 < H := mul_pos hc hD
  have hrot : a ^ 2 + V ^ 2 + H ^ 2 = 1 :=
    ObliqMercator.rotate _ _ _ _ _ _ (sin_sq_add_cos_sq p.lat0) (sin_sq_add_cos_sq (rad lat)) (sin_sq_add_cos_sq D)
  have hw0 : 0 < 1 - a ^ 2 := by nlinarith [sq_nonneg V, sq_pos_of_pos hH]
  set w := √(1 - a ^ 2) with hw
  have hwp : 0 < w := sqrt_pos.mpr hw0
  have hw2 : w ^ 2 = 1 - a ^ 2 := sq_sqrt hw0.le
  have hn : √(1 + (V / H) ^ 2) = w / H := by
    rw [sqrt_eq_iff_mul_self_eq (by positivity) (by positivity)]
    field_simp
    linarith
  have hcx : cos (arctan (V / H)) = H / w := by
    rw [cos_arctan, hn]
    field_simp
  have hsx : sin (arctan (V / H)) = V / w := by
    rw [sin_arctan, hn]
    field_simp
  have h0 := sin_sq_add_cos_sq p.lat0
  have hlat : sin p.lat0 * tanh (artanh a) + cos p.lat0 * sin (arctan (V / H)) / cosh (artanh a) = sin (rad lat) := by
    rw [tanh_artanh ⟨ha1, ha2⟩, cosh_artanh ⟨ha1, ha2⟩, hsx, ← hw]
    have : sin p.lat0 * a + cos p.lat0 * V = sin (rad lat) := by
      rw [had, hVd]
      linear_combination sin (rad lat) * h0
    rw [← this]
    field_simp
  have hlon : (sin p.lat0 * sin (arctan (V / H)) - cos p.lat0 * sinh (artanh a)) / cos (arctan (V / H)) = tan D := by
    rw [sinh_artanh ⟨ha1, ha2⟩, hsx, hcx, ← hw, tan_eq_sin_div_cos]
    have : sin p.lat0 * V - cos p.lat0 * a = cos (rad lat) * sin D := by
      rw [had, hVd]
      linear_combination cos (rad lat) * sin D * h0
    have e : sin p.lat0 * (V / w) - cos p.lat0 * (a / w) = cos (rad lat) * sin D / w := by
      rw [← this]
      ring
    rw [e, hHd]
    field_simp
  obtain ⟨k, hk⟩ : ∃ k : ℤ, arctan (tan D) = D + 2 * π * k := by
    have hpos : 0 < cos (arctan (tan D)) := cos_arctan_pos _
    have hn : √(1 + tan D ^ 2) = (cos D)⁻¹ := by
      rw [← inv_sqrt_one_add_tan_sq hD, inv_inv]
    refine angle_eq ?_ ?_
    · rw [cos_arctan, hn]
      field_simp
    · rw [sin_arctan, hn, tan_eq_sin_div_cos]
      field_simp
  refine ⟨k, ?_⟩
  rw [ObliqMercator.rect2geo, rdiv_ok hr, rdiv_ok hr, mul_div_cancel_left₀ _ hr, mul_div_cancel_left₀ _ hr]
  change (rdiv _ (cosh (artanh a)) >>= _) = _
  rw [rdiv_ok (cosh_pos _).ne']
  change (rasin (sin p.lat0 * tanh (artanh a) + cos p.lat0 * sin (arctan (V / H)) / cosh (artanh a)) >>= _) = _
  rw [hlat, rasin_sin h1.le h2.le]
  change (rdiv _ (cos (arctan (V / H))) >>= _) = _
  rw [rdiv_ok (cos_arctan_pos _).ne', hlon]
  change Except.ok _ = _
  rw [deg_rad, hk, hDd, show p.lon0 + (rad lon - p.lon0 + 2 * π * k) = rad lon + 2 * π * k by ring, deg_turns_of rfl]

/-! ### ConicEqualArea -/

theorem Conic.new_eq (lat1 lat2 : ℝ) (radius : Option ℝ) (hn : sin (rad lat1) + sin (rad lat2) ≠ 0) :
    Conic.new (some (lat1, lat2)) radius = .ok
      { r := radius.getD ((wgs84.a + wgs84.b) / 2)
        n := (sin (rad lat1) + sin (rad lat2)) / 2
        c := 1 + sin (rad lat1) * sin (rad lat2)
        p0 := radius.getD ((wgs84.a + wgs84.b) / 2) * √(1 + sin (rad lat1) * sin (rad lat2)) / ((sin (rad lat1) + sin (rad lat2)) / 2) } := by
  have hc : cos (rad lat1) * cos (rad lat1) + 2 * ((sin (rad lat1) + sin (rad lat2)) / 2) * sin (rad lat1) = 1 + sin (rad lat1) * sin (rad lat2) := by
    linear_combination sin_sq_add_cos_sq (rad lat1)
  have h0 : 0 ≤ 1 + sin (rad lat1) * sin (rad lat2) := by
    nlinarith [neg_one_le_sin (rad lat1), sin_le_one (rad lat1), neg_one_le_sin (rad lat2), sin_le_one (rad lat2)]
  have hn2 : (sin (rad lat1) + sin (rad lat2)) / 2 ≠ 0 := div_ne_zero hn two_ne_zero
  simp only [Conic.new, Option.getD_some, hc]
  rw [rsqrt_ok h0]
  change (rdiv _ _ >>= _) = _
  rw [rdiv_ok hn2]
  rfl

theorem Conic.radicand (s1 s2 σ : ℝ) (h1 : -1 ≤ s1 ∧ s1 ≤ 1) (h2 : -1 ≤ s2 ∧ s2 ≤ 1) (hn : s1 + s2 ≠ 0) :
    (-1 ≤ σ ∧ σ ≤ 1 → 0 ≤ 1 + s1 * s2 - (s1 + s2) * σ) ∧ (-1 < σ ∧ σ < 1 → 0 < 1 + s1 * s2 - (s1 + s2) * σ) := by
  have key : 1 + s1 * s2 - (s1 + s2) * σ = (1 + σ) / 2 * ((1 - s1) * (1 - s2)) + (1 - σ) / 2 * ((1 + s1) * (1 + s2)) := by ring
  have ha : 0 ≤ (1 - s1) * (1 - s2) := mul_nonneg (by linarith) (by linarith)
  have hb : 0 ≤ (1 + s1) * (1 + s2) := mul_nonneg (by linarith) (by linarith)
  rw [key]
  refine ⟨fun h => add_nonneg (mul_nonneg (by linarith) ha) (mul_nonneg (by linarith) hb), fun h => ?_⟩
  rcases ha.lt_or_eq with ha' | ha'
  · exact add_pos_of_pos_of_nonneg (mul_pos (by linarith) ha') (mul_nonneg (by linarith) hb)
  · refine add_pos_of_nonneg_of_pos (mul_nonneg (by linarith) ha) (mul_pos (by linarith) (lt_of_le_of_ne hb fun hb' => ?_))
    rcases mul_eq_zero.mp ha'.symm with e | e <;> rcases mul_eq_zero.mp hb'.symm with f | f
    · linarith
    · exact hn (by linarith)
    · exact hn (by linarith)
    · linarith

theorem Conic.back {lat1 lat2 r : ℝ} (hr : 0 < r) (hn : sin (rad lat1) + sin (rad lat2) ≠ 0) (lon : ℝ) {lat : ℝ} (h : |lat| ≤ 90)
    (ht : |(sin (rad lat1) + sin (rad lat2)) / 2 * lon| < 180) :
    ∃ q x y lon', Conic.new (some (lat1, lat2)) (some r) = .ok q ∧ Conic.geo2rect q lon lat = .ok (x, y) ∧
      Conic.rect2geo q x y = .ok (lon', lat) ∧ (|lat| < 90 → lon' = lon) := by
  set n := (sin (rad lat1) + sin (rad lat2)) / 2 with hnd
  have hn0 : n ≠ 0 := div_ne_zero hn two_ne_zero
  have hnew := Conic.new_eq lat1 lat2 (some r) hn
  rw [← hnd, Option.getD_some] at hnew
  obtain ⟨hl1, hl2⟩ := rad_bounds_le h
  obtain ⟨w0, w1⟩ := Conic.radicand (sin (rad lat1)) (sin (rad lat2)) (sin (rad lat)) ⟨neg_one_le_sin _, sin_le_one _⟩
    ⟨neg_one_le_sin _, sin_le_one _⟩ hn
  have hw0 := w0 ⟨neg_one_le_sin _, sin_le_one _⟩
  have hwe : 1 + sin (rad lat1) * sin (rad lat2) - (sin (rad lat1) + sin (rad lat2)) * sin (rad lat) =
      1 + sin (rad lat1) * sin (rad lat2) - 2 * n * sin (rad lat) := by
    rw [hnd]
    ring
  rw [hwe] at hw0 w1
  set W := 1 + sin (rad lat1) * sin (rad lat2) - 2 * n * sin (rad lat) with hW
  set p0 := r * √(1 + sin (rad lat1) * sin (rad lat2)) / n with hp0
  set P := r * √W / n with hP
  have hgeo : Conic.geo2rect { r := r, n := n, c := 1 + sin (rad lat1) * sin (rad lat2), p0 := p0 } lon lat =
      .ok (P * sin (n * rad lon), p0 - P * cos (n * rad lon)) := by
    rw [Conic.geo2rect]
    change (rsqrt W >>= _) = _
    rw [rsqrt_ok hw0]
    change (rdiv _ n >>= _) = _
    rw [rdiv_ok hn0]
    rfl
  have hsq : P * sin (n * rad lon) * (P * sin (n * rad lon)) + (p0 - (p0 - P * cos (n * rad lon))) * (p0 - (p0 - P * cos (n * rad lon))) = P ^ 2 := by
    linear_combination P ^ 2 * sin_sq_add_cos_sq (n * rad lon)
  have hpn : |P| * n / r * (|P| * n / r) = W := by
    have : |P| * n / r * (|P| * n / r) = P ^ 2 * n ^ 2 / r ^ 2 := by
      rw [← sq_abs P]
      ring
    rw [this, hP]
    field_simp
    rw [sq_sqrt hw0]
  have hq : (1 + sin (rad lat1) * sin (rad lat2) - W) / (2 * n) = sin (rad lat) := by
    rw [hW]
    field_simp
    ring
  set t := (if n < 0 then atan2 (-(P * sin (n * rad lon))) (-p0 - -(p0 - P * cos (n * rad lon)))
    else atan2 (P * sin (n * rad lon)) (p0 - (p0 - P * cos (n * rad lon)))) with htd
  have hback : Conic.rect2geo { r := r, n := n, c := 1 + sin (rad lat1) * sin (rad lat2), p0 := p0 } (P * sin (n * rad lon)) (p0 - P * cos (n * rad lon)) =
      .ok (deg (t / n), lat) := by
    simp only [Conic.rect2geo]
    rw [hsq, sqrt_sq_eq_abs, ← htd, rdiv_ok hn0]
    change (rdiv _ r >>= _) = _
    rw [rdiv_ok hr.ne']
    change (rdiv (_ - |P| * n / r * (|P| * n / r)) _ >>= _) = _
    rw [hpn, rdiv_ok (mul_ne_zero two_ne_zero hn0), hq]
    change (rasin _ >>= _) = _
    rw [rasin_sin hl1 hl2]
    change Except.ok _ = _
    rw [deg_rad]
  refine ⟨_, _, _, _, hnew, hgeo, hback, fun hlt => ?_⟩
  obtain ⟨s1, s2⟩ := rad_bounds hlt
  have hcp := cos_rad_pos hlt
  have hwp : 0 < W := w1 ⟨by linarith [one_add_sin_pos hcp], by linarith [one_sub_sin_pos hcp]⟩
  have e : n * rad lon = rad (n * lon) := by
    simp only [rad]
    ring
  have b1 : -π < n * rad lon := by
    rw [e, ← deg_lt, deg_rad, deg_neg, deg_pi]
    exact (abs_lt.mp ht).1
  have b2 : n * rad lon < π := by
    rw [e, ← deg_lt, deg_rad, deg_pi]
    exact (abs_lt.mp ht).2
  have htv : t = n * rad lon := by
    rw [htd]
    split_ifs with hneg
    · have hPn : 0 < -P := by
        rw [hP, ← div_neg]
        exact div_pos (mul_pos hr (sqrt_pos.mpr hwp)) (by linarith)
      refine Eq.trans ?_ (atan2_polar hPn b1 b2.le)
      congr 1 <;> ring
    · have hPn : 0 < P := div_pos (mul_pos hr (sqrt_pos.mpr hwp)) (lt_of_le_of_ne (not_lt.mp hneg) hn0.symm)
      refine Eq.trans ?_ (atan2_polar hPn b1 b2.le)
      congr 1
      ring
  rw [htv, mul_div_cancel_left₀ _ hn0, deg_rad]

end Proj
end Coral
