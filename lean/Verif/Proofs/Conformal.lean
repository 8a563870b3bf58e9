import Verif.Proofs.Chart

/-! # Local scales of the transverse and oblique Mercator and the azimuthal projections -/
namespace Coral
namespace Proj

open Real Topology

theorem artanh_deriv {x : ℝ} (h1 : -1 < x) (h2 : x < 1) : HasDerivAt artanh (1 / (1 - x ^ 2)) x := by
  have e : ∀ᶠ y in 𝓝 x, artanh y = 1 / 2 * log ((1 + y) / (1 - y)) := by
    filter_upwards [Ioo_mem_nhds h1 h2] with y hy
    exact artanh_eq_half_log ⟨hy.1.le, hy.2.le⟩
  have p1 : 0 < 1 + x := by linarith
  have p2 : 0 < 1 - x := by linarith
  have d := ((((hasDerivAt_id x).const_add 1).div ((hasDerivAt_id x).const_sub 1) p2.ne').log (div_pos p1 p2).ne').const_mul (1 / 2)
  refine (d.congr_of_eventuallyEq e).congr_deriv ?_
  have : 1 - x ^ 2 = (1 - x) * (1 + x) := by ring
  rw [this]
  simp only [id, Pi.div_apply]
  field_simp
  ring

/-- Near a point off the origin the polar angle is a differentiable function, up to full turns. -/
theorem atan2_local {X Y : ℝ → ℝ} {x X' Y' : ℝ} (hX : HasDerivAt X X' x) (hY : HasDerivAt Y Y' x) (hne : 0 < X x ^ 2 + Y x ^ 2) :
    ∃ F : ℝ → ℝ, HasDerivAt F ((X x * Y' - Y x * X') / (X x ^ 2 + Y x ^ 2)) x ∧ F x = atan2 (Y x) (X x) ∧
      ∀ᶠ l in 𝓝 x, ∃ k : ℤ, atan2 (Y l) (X l) = F l + 2 * π * k := by
  set θ := atan2 (Y x) (X x) with hθ
  have c := atan2_cos (Y x) (X x)
  have s := atan2_sin (Y x) (X x)
  rw [← hθ] at c s
  set ρ := √(X x ^ 2 + Y x ^ 2) with hρ
  have hρ0 : 0 < ρ := sqrt_pos.mpr hne
  have hρ2 : ρ ^ 2 = X x ^ 2 + Y x ^ 2 := sq_sqrt hne.le
  have hsc := sin_sq_add_cos_sq θ
  have hP : HasDerivAt (fun l => X l * cos θ + Y l * sin θ) (X' * cos θ + Y' * sin θ) x := (hX.mul_const _).add (hY.mul_const _)
  have hQ : HasDerivAt (fun l => Y l * cos θ - X l * sin θ) (Y' * cos θ - X' * sin θ) x := (hY.mul_const _).sub (hX.mul_const _)
  have p0 : X x * cos θ + Y x * sin θ = ρ := by
    rw [← c, ← s]
    linear_combination ρ * hsc
  have q0 : Y x * cos θ - X x * sin θ = 0 := by
    rw [← c, ← s]
    ring
  refine ⟨fun l => θ + arctan ((Y l * cos θ - X l * sin θ) / (X l * cos θ + Y l * sin θ)), ?_, ?_, ?_⟩
  · have := ((hQ.div hP (by rw [p0]; exact hρ0.ne')).arctan).const_add θ
    refine this.congr_deriv ?_
    simp only [Pi.div_apply]
    rw [p0, q0, ← hρ2, ← c, ← s]
    field_simp
    ring
  · simp only [q0, zero_div, arctan_zero, add_zero]
  · have hpos : ∀ᶠ l in 𝓝 x, 0 < X l * cos θ + Y l * sin θ :=
      continuousAt_const.eventually_lt hP.continuousAt (by rw [p0]; exact hρ0)
    filter_upwards [hpos] with l hl
    set P := X l * cos θ + Y l * sin θ with hPd
    set Q := Y l * cos θ - X l * sin θ with hQd
    have hXl : X l = P * cos θ - Q * sin θ := by
      rw [hPd, hQd]
      linear_combination (-X l) * hsc
    have hYl : Y l = P * sin θ + Q * cos θ := by
      rw [hPd, hQd]
      linear_combination (-Y l) * hsc
    have hR : 0 < √(1 + (Q / P) ^ 2) := sqrt_pos.mpr (by positivity)
    have hm := atan2_mod (ρ := P * √(1 + (Q / P) ^ 2)) (θ := θ + arctan (Q / P)) (mul_pos hl hR)
    obtain ⟨k, hk⟩ := hm
    refine ⟨k, ?_⟩
    rw [← hk, sin_add, cos_add, cos_arctan, sin_arctan, hXl, hYl]
    congr 1 <;> field_simp

theorem corangle_atan2_local {X Y : ℝ → ℝ} {x X' Y' p0 : ℝ} (hX : HasDerivAt X X' x) (hY : HasDerivAt Y Y' x) (hne : 0 < X x ^ 2 + Y x ^ 2)
    (hs : |corangle (atan2 (Y x) (X x) - p0)| < π) :
    ∃ G : ℝ → ℝ, HasDerivAt G ((X x * Y' - Y x * X') / (X x ^ 2 + Y x ^ 2)) x ∧ ∀ᶠ l in 𝓝 x, corangle (atan2 (Y l) (X l) - p0) = G l := by
  obtain ⟨F, hF, hFx, hev⟩ := atan2_local hX hY hne
  obtain ⟨k, hk⟩ := corangle_turns (atan2 (Y x) (X x) - p0)
  have hG : HasDerivAt (fun l => F l - p0 + 2 * π * k) ((X x * Y' - Y x * X') / (X x ^ 2 + Y x ^ 2)) x := (hF.sub_const p0).add_const _
  refine ⟨_, hG, ?_⟩
  rw [hk, ← hFx, abs_lt] at hs
  filter_upwards [hev, hG.continuousAt.eventually_lt continuousAt_const hs.2, continuousAt_const.eventually_lt hG.continuousAt hs.1] with l ⟨j, hj⟩ a b
  refine corangle_of_turns (k := j - k) ?_ b a
  rw [hj]
  push_cast
  ring

/-! ### Transverse Mercator -/

theorem TransMercator.geo2rect_eq (p : Sphere) (lon : ℝ) {lat : ℝ} (h : |lat| < 90) (hb : |cos (rad lat) * sin (rad lon - p.lon0)| < 1) :
    TransMercator.geo2rect p lon lat = .ok (p.r * artanh (cos (rad lat) * sin (rad lon - p.lon0)),
      p.r * corangle (atan2 (tan (rad lat)) (cos (rad lon - p.lon0)) - p.lat0)) := by
  have hc := cos_rad_pos h
  rw [abs_lt] at hb
  rw [TransMercator.geo2rect]
  rw [if_neg (by rintro (e | e) <;> rw [e] at hb <;> norm_num at hb), ratanh_ok hb.1 hb.2, rtan_ok hc.ne']
  rfl

theorem near_abs {f : ℝ → ℝ} {x c : ℝ} (hf : ContinuousAt f x) (h : |f x| < c) : ∀ᶠ y in 𝓝 x, |f y| < c :=
  hf.abs.eventually_lt continuousAt_const h

/-- The four conditions of a conformal map, from partial derivatives by radians. -/
theorem conformal_of {g : ℝ → ℝ → Py (ℝ × ℝ)} {R lon lat k xD yD xφ yφ : ℝ} (hR : 0 < R) (hk : 0 < k) (h : |lat| < 90)
    (hp : Spec.HasPartials g lon lat (R * (xD * (π / 180))) (R * (yD * (π / 180))) (R * (xφ * (π / 180))) (R * (yφ * (π / 180))))
    (e1 : xD = cos (rad lat) * yφ) (e2 : yD = -(cos (rad lat) * xφ)) (e3 : xφ ^ 2 + yφ ^ 2 = k ^ 2) :
    Spec.LocalScale g R R lon lat k k := by
  have hπ := pi_pos
  have hc := cos_rad_pos h
  refine ⟨_, _, _, _, hp, ?_, ?_, ?_, ?_⟩
  · have : (R * (xφ * (π / 180))) ^ 2 + (R * (yφ * (π / 180))) ^ 2 = (k * (R * π / 180)) ^ 2 := by
      linear_combination (R * (π / 180)) ^ 2 * e3
    rw [this, sqrt_sq (by positivity)]
  · have : (R * (xD * (π / 180))) ^ 2 + (R * (yD * (π / 180))) ^ 2 = (k * (R * cos (rad lat) * π / 180)) ^ 2 := by
      rw [e1, e2]
      linear_combination (R * cos (rad lat) * (π / 180)) ^ 2 * e3
    rw [this, sqrt_sq (by positivity), rad_eq lat]
  · rw [e1, e2]
    ring
  · have : R * (xD * (π / 180)) * (R * (yφ * (π / 180))) - R * (yD * (π / 180)) * (R * (xφ * (π / 180))) = (R * (π / 180)) ^ 2 * cos (rad lat) * k ^ 2 := by
      rw [e1, e2]
      linear_combination (R * (π / 180)) ^ 2 * cos (rad lat) * e3
    rw [this]
    positivity

theorem TransMercator.local_scale (p : Sphere) (hr : 0 < p.r) {lon lat : ℝ} (h : |lat| < 90) (hb : |cos (rad lat) * sin (rad lon - p.lon0)| < 1)
    (hy : |corangle (atan2 (tan (rad lat)) (cos (rad lon - p.lon0)) - p.lat0)| < π) :
    ∃ k, TransMercator.scale p lon lat = .ok k ∧ Spec.LocalScale (TransMercator.geo2rect p) p.r p.r lon lat k k := by
  have hc := cos_rad_pos h
  have hb' := hb
  rw [abs_lt] at hb'
  set φ := rad lat with hφ
  set D := rad lon - p.lon0 with hD
  have hw : 0 < 1 - (cos φ * sin D) ^ 2 := by nlinarith
  have hsc := sin_sq_add_cos_sq φ
  have hSC := sin_sq_add_cos_sq D
  have hρ : cos D ^ 2 + tan φ ^ 2 = (1 - (cos φ * sin D) ^ 2) / cos φ ^ 2 := by
    rw [tan_eq_sin_div_cos]
    field_simp
    linear_combination hsc + cos φ ^ 2 * hSC
  have hρ0 : 0 < cos D ^ 2 + tan φ ^ 2 := by
    rw [hρ]
    positivity
  have dlon : HasDerivAt (fun l => rad l - p.lon0) (π / 180) lon := (rad_deriv lon).sub_const _
  have dlat := rad_deriv lat
  have scale : TransMercator.scale p lon lat = .ok (1 / √(1 - (cos φ * sin D) ^ 2)) := by
    rw [TransMercator.scale]
    rw [← hφ, ← hD, show cos φ * sin D * (cos φ * sin D) = (cos φ * sin D) ^ 2 by ring, rsqrt_ok hw.le]
    change rdiv _ _ = _
    rw [rdiv_ok (sqrt_pos.mpr hw).ne']
  refine ⟨_, scale, ?_⟩
  set w := 1 - (cos φ * sin D) ^ 2 with hwd
  -- x
  have b1 : HasDerivAt (fun l => cos φ * sin (rad l - p.lon0)) (cos φ * (cos D * (π / 180))) lon := dlon.sin.const_mul _
  have b2 : HasDerivAt (fun l => cos (rad l) * sin D) (-sin φ * (π / 180) * sin D) lat := dlat.cos.mul_const _
  have x1 := ((artanh_deriv hb'.1 hb'.2).comp lon b1).const_mul p.r
  have x2 := ((artanh_deriv hb'.1 hb'.2).comp lat b2).const_mul p.r
  -- y
  have t2 : HasDerivAt (fun l => tan (rad l)) (1 / cos φ ^ 2 * (π / 180)) lat := HasDerivAt.comp (h := rad) lat (hasDerivAt_tan hc.ne') dlat
  obtain ⟨G1, g1, v1⟩ := corangle_atan2_local (p0 := p.lat0) dlon.cos (hasDerivAt_const lon (tan φ)) hρ0 hy
  obtain ⟨G2, g2, v2⟩ := corangle_atan2_local (p0 := p.lat0) (hasDerivAt_const lat (cos D)) t2 hρ0 hy
  refine conformal_of (xD := cos φ * cos D / w) (yD := sin φ * cos φ * sin D / w) (xφ := -(sin φ * sin D) / w) (yφ := cos D / w) hr
    (div_pos one_pos (sqrt_pos.mpr hw)) h ⟨⟨_, fun l => p.r * G1 l, ?_, x1.congr_deriv ?_, (g1.const_mul p.r).congr_deriv ?_⟩,
    ⟨_, fun l => p.r * G2 l, ?_, x2.congr_deriv ?_, (g2.const_mul p.r).congr_deriv ?_⟩⟩ ?_ ?_ ?_
  · filter_upwards [v1, near_abs b1.continuousAt hb] with l hl hl'
    rw [TransMercator.geo2rect_eq p l h hl', ← hl]
    rfl
  · rw [← hwd]
    ring
  · rw [hρ, ← hD, tan_eq_sin_div_cos]
    field_simp
    ring
  · filter_upwards [v2, near_lat h, near_abs b2.continuousAt hb] with l hl hl' hl''
    rw [TransMercator.geo2rect_eq p lon hl' hl'', ← hl]
    rfl
  · rw [← hwd]
    ring
  · rw [hρ]
    field_simp
    ring
  · rw [← hφ]
    ring
  · rw [← hφ]
    ring
  · have : (sin φ * sin D) ^ 2 + cos D ^ 2 = w := by
      rw [hwd]
      linear_combination sin D ^ 2 * hsc + hSC
    rw [div_pow 1, sq_sqrt hw.le]
    field_simp
    linear_combination this

/-! ### Oblique Mercator -/

theorem ObliqMercator.local_scale (p : Sphere) (hr : 0 < p.r) {lon lat : ℝ} (h : |lat| < 90) (hD0 : cos (rad lon - p.lon0) ≠ 0) :
    ∃ k, ObliqMercator.scale p lon lat = .ok k ∧ Spec.LocalScale (ObliqMercator.geo2rect p) p.r p.r lon lat k k := by
  have hc := cos_rad_pos h
  obtain ⟨ha1, ha2, _⟩ := ObliqMercator.geo2rect_eq p lon h hD0
  set φ := rad lat with hφ
  set D := rad lon - p.lon0 with hD
  set c := cos p.lat0
  set s := sin p.lat0
  have hsc := sin_sq_add_cos_sq φ
  have hSC := sin_sq_add_cos_sq D
  have h0 : s ^ 2 + c ^ 2 = 1 := sin_sq_add_cos_sq p.lat0
  have hrot := ObliqMercator.rotate c s (cos φ) (sin φ) (sin D) (cos D) h0 hsc hSC
  set a := s * sin φ - c * cos φ * sin D with had
  have hw : 0 < 1 - a ^ 2 := by nlinarith
  have hH : cos φ * cos D ≠ 0 := mul_ne_zero hc.ne' hD0
  have hw' : (sin φ * c + s * (cos φ * sin D)) ^ 2 + (cos φ * cos D) ^ 2 = 1 - a ^ 2 := by linarith
  have scale : ObliqMercator.scale p lon lat = .ok (1 / √(1 - a ^ 2)) := by
    have : ∀ x : ℝ, x * x = x ^ 2 := fun x => by ring
    rw [ObliqMercator.scale]
    rw [this, rsqrt_ok hw.le]
    change rdiv _ _ = _
    rw [rdiv_ok (sqrt_pos.mpr hw).ne']
  refine ⟨_, scale, ?_⟩
  have dlon : HasDerivAt (fun l => rad l - p.lon0) (π / 180) lon := (rad_deriv lon).sub_const _
  have dlat := rad_deriv lat
  have a1 : HasDerivAt (fun l => s * sin φ - c * cos φ * sin (rad l - p.lon0)) (-(c * cos φ * (cos D * (π / 180)))) lon := (dlon.sin.const_mul _).const_sub _
  have a2 : HasDerivAt (fun l => s * sin (rad l) - c * cos (rad l) * sin D) (s * (cos φ * (π / 180)) - c * (-sin φ * (π / 180)) * sin D) lat :=
    (dlat.sin.const_mul s).sub ((dlat.cos.const_mul c).mul_const _)
  have y1 := ((artanh_deriv ha1 ha2).comp lon a1).const_mul p.r
  have y2 := ((artanh_deriv ha1 ha2).comp lat a2).const_mul p.r
  have V1 : HasDerivAt (fun l => sin φ * c + s * (cos φ * sin (rad l - p.lon0))) (s * (cos φ * (cos D * (π / 180)))) lon := ((dlon.sin.const_mul _).const_mul s).const_add _
  have H1 : HasDerivAt (fun l => cos φ * cos (rad l - p.lon0)) (cos φ * (-sin D * (π / 180))) lon := dlon.cos.const_mul _
  have V2 : HasDerivAt (fun l => sin (rad l) * c + s * (cos (rad l) * sin D)) (cos φ * (π / 180) * c + s * (-sin φ * (π / 180) * sin D)) lat :=
    (dlat.sin.mul_const c).add ((dlat.cos.mul_const _).const_mul s)
  have H2 : HasDerivAt (fun l => cos (rad l) * cos D) (-sin φ * (π / 180) * cos D) lat := dlat.cos.mul_const _
  have x1 := ((V1.div H1 hH).arctan).const_mul p.r
  have x2 := ((V2.div H2 hH).arctan).const_mul p.r
  have hx : 1 + ((sin φ * c + s * (cos φ * sin D)) / (cos φ * cos D)) ^ 2 = (1 - a ^ 2) / (cos φ * cos D) ^ 2 := by
    rw [← hw']
    field_simp
    ring
  have near : ∀ᶠ l in 𝓝 lon, cos (rad l - p.lon0) ≠ 0 := dlon.cos.continuousAt.eventually_ne hD0
  set w := 1 - a ^ 2 with hwd
  set Q := s * cos φ + c * sin φ * sin D with hQ
  refine conformal_of (xD := cos φ * Q / w) (yD := -(c * cos φ * cos D) / w) (xφ := c * cos D / w) (yφ := Q / w) hr
    (div_pos one_pos (sqrt_pos.mpr hw)) h ⟨⟨_, _, ?_, x1.congr_deriv ?_, y1.congr_deriv ?_⟩,
    ⟨_, _, ?_, x2.congr_deriv ?_, y2.congr_deriv ?_⟩⟩ ?_ ?_ ?_
  · filter_upwards [near] with l hl
    exact (ObliqMercator.geo2rect_eq p l h hl).2.2
  · simp only [Pi.div_apply, ← hD]
    rw [hx, hQ]
    field_simp
    linear_combination s * cos φ * hSC
  · field_simp
  · filter_upwards [near_lat h] with l hl
    exact (ObliqMercator.geo2rect_eq p lon hl hD0).2.2
  · simp only [Pi.div_apply, ← hφ]
    rw [hx]
    field_simp
    linear_combination c * hsc
  · rw [hQ]
    field_simp
    ring
  · rw [← hφ]
    ring
  · rw [← hφ]
    ring
  · have : (c * cos D) ^ 2 + Q ^ 2 = w := by
      rw [hQ, hwd, had]
      linear_combination (1 : ℝ) * h0 + s ^ 2 * hsc + c ^ 2 * hSC + c ^ 2 * sin D ^ 2 * hsc
    rw [div_pow 1, sq_sqrt hw.le]
    field_simp
    linear_combination this

end Proj
end Coral
