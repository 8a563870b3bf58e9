import Verif.Props.FloatsO

/-!
# The way back from the transverse Mercator projection on floats (C182)
-/
namespace Coral
namespace Flt

/-- The exponential function on bounded numbers. -/
theorem exp_lip {a b : ℝ} (ha : a ≤ 5) (hb : b ≤ 5) : |Real.exp a - Real.exp b| ≤ 150 * |a - b| := by
  have five : Real.exp 5 ≤ 150 := by
    have h := Real.exp_one_lt_d9
    have e : Real.exp 5 = Real.exp 1 ^ 5 := by rw [← Real.exp_nat_mul]; norm_num
    rw [e]
    exact (pow_le_pow_left₀ (Real.exp_pos 1).le h.le 5).trans (by norm_num)
  have key : ∀ {a b : ℝ}, a ≤ 5 → Real.exp a - Real.exp b ≤ 150 * |a - b| := by
    intro a b ha
    have e : Real.exp b = Real.exp a * Real.exp (b - a) := by rw [← Real.exp_add]; congr 1; ring
    have h := Real.add_one_le_exp (b - a)
    have p := Real.exp_pos a
    have l : Real.exp a ≤ 150 := (Real.exp_le_exp.mpr ha).trans five
    have k := mul_le_mul_of_nonneg_left h p.le
    have n : Real.exp a * (a - b) ≤ Real.exp a * |a - b| := mul_le_mul_of_nonneg_left (le_abs_self _) p.le
    have o := mul_le_mul_of_nonneg_right l (abs_nonneg (a - b))
    rw [e]
    linarith
  have h1 := key (b := b) ha
  have h2 := key (b := a) hb
  rw [abs_sub_comm b a] at h2
  exact abs_le.mpr ⟨by linarith, h1⟩

theorem sinh_lip {a b : ℝ} (ha : |a| ≤ 5) (hb : |b| ≤ 5) : |Real.sinh a - Real.sinh b| ≤ 150 * |a - b| ∧ |Real.cosh a - Real.cosh b| ≤ 150 * |a - b| := by
  obtain ⟨a1, a2⟩ := abs_le.mp ha
  obtain ⟨b1, b2⟩ := abs_le.mp hb
  have h1 := abs_le.mp (exp_lip a2 b2)
  have h2 := exp_lip (a := -a) (b := -b) (by linarith) (by linarith)
  rw [show -a - -b = -(a - b) by ring, abs_neg] at h2
  have h2' := abs_le.mp h2
  rw [Real.sinh_eq, Real.sinh_eq, Real.cosh_eq, Real.cosh_eq]
  constructor <;> rw [abs_le] <;> constructor <;> linarith [h1.1, h1.2, h2'.1, h2'.2]

theorem sinh_four {t : ℝ} (h : |t| ≤ 4) : |Real.sinh t| ≤ 60 ∧ |Real.cosh t| ≤ 60 := by
  obtain ⟨a1, a2⟩ := abs_le.mp h
  have four : ∀ {u : ℝ}, u ≤ 4 → Real.exp u ≤ 60 := by
    intro u hu
    refine (Real.exp_le_exp.mpr hu).trans ?_
    have h := Real.exp_one_lt_d9
    have e : Real.exp 4 = Real.exp 1 ^ 4 := by rw [← Real.exp_nat_mul]; norm_num
    rw [e]
    exact (pow_le_pow_left₀ (Real.exp_pos 1).le h.le 4).trans (by norm_num)
  have p := four a2
  have q := four (by linarith : -t ≤ 4)
  have p0 := Real.exp_pos t
  have q0 := Real.exp_pos (-t)
  rw [Real.sinh_eq, Real.cosh_eq]
  constructor <;> rw [abs_le] <;> constructor <;> linarith

/-- The quotient of a sine by a number from 1. -/
theorem sine_quotient {s c : ℚ} {S C : ℝ} (c1 : (1 : ℝ) ≤ c) (C1 : 1 ≤ C) (S1 : |S| ≤ 1) (hs : |(s : ℝ) - S| ≤ 17 * w) (hc : |(c : ℝ) - C| ≤ 481 * w) :
    |(fl (s / c) : ℝ) - S / C| ≤ 500 * w := by
  have hw := w_pos
  have hle := w_le
  have c0 : (0 : ℝ) < c := by linarith
  have C0 : 0 < C := by linarith
  have a : |(s : ℝ) / c - S / C| ≤ 498 * w := by
    rw [show (s : ℝ) / c - S / C = (s - S) / c + S / C * ((C - c) / c) by field_simp; ring]
    refine (abs_add_le _ _).trans ?_
    rw [abs_mul]
    have b1 : |((s : ℝ) - S) / c| ≤ 17 * w := by
      rw [abs_div, abs_of_pos c0, div_le_iff₀ c0]
      nlinarith
    have b2 : |S / C| ≤ 1 := by
      rw [abs_div, abs_of_pos C0, div_le_one C0]
      linarith
    have b3 : |(C - (c : ℝ)) / c| ≤ 481 * w := by
      rw [abs_div, abs_of_pos c0, div_le_iff₀ c0, abs_sub_comm]
      nlinarith
    have := mul_le_mul b2 b3 (abs_nonneg _) zero_le_one
    linarith
  have := fl_step (x := s / c) (X := S / C) (e := 498 * w) (B := 1) (by push_cast; exact a) (by rw [abs_div, abs_of_pos C0, div_le_one C0]; linarith) (by linarith)
  linarith

/-- The numbers that `rect2geo` gets from a point: the arguments of `asin` and `atan2`. -/
theorem back_numbers {m : TransLib} (hm : m.Rounds) {lat0 r x y : ℚ} (h0 : |lat0| ≤ 90) (hr : 1 ≤ r) (hx : |x| ≤ 4 * r) (hy : |y| ≤ 4 * r) :
    |(m.sinh (fl (x / r)) : ℝ) - Real.sinh (x / r)| ≤ 481 * w ∧ |(m.cosh (fl (x / r)) : ℝ) - Real.cosh (x / r)| ≤ 481 * w ∧
      |(m.sin (fl (fl (y / r) + radians lat0)) : ℝ) - Real.sin (y / r + rad lat0)| ≤ 17 * w ∧
      |(m.cos (fl (fl (y / r) + radians lat0)) : ℝ) - Real.cos (y / r + rad lat0)| ≤ 17 * w := by
  have hw := w_pos
  have hle := w_le
  have hr' : (1 : ℝ) ≤ r := by exact_mod_cast hr
  have r0 : (0 : ℝ) < r := by linarith
  have h0' := abs_real h0
  push_cast at h0'
  have four : ∀ {z : ℚ}, |z| ≤ 4 * r → |(z : ℝ) / r| ≤ 4 := by
    intro z hz
    have := abs_real hz
    push_cast at this
    rw [abs_div, abs_of_pos r0, div_le_iff₀ r0]
    exact this
  have T := four hx
  have U := four hy
  have step : ∀ {z : ℚ}, |(z : ℝ) / r| ≤ 4 → |(fl (z / r) : ℝ) - z / r| ≤ 3 * w := by
    intro z hz
    have := fl_step (x := z / r) (X := (z : ℝ) / r) (e := 0) (B := 4) (by push_cast; rw [sub_self, abs_zero]) hz (by norm_num)
    linarith
  have t := step T
  have u := step U
  have t5 : |(fl (x / r) : ℝ)| ≤ 5 := by
    have := abs_sub_abs_le_abs_sub (fl (x / r) : ℝ) ((x : ℝ) / r)
    linarith
  obtain ⟨sh, ch⟩ := sinh_lip t5 (T.trans (by norm_num))
  obtain ⟨S60, C60⟩ := sinh_four T
  have rl := radians_err (x := lat0) (by linarith)
  have ra := rad_abs h0'
  have d := fl_step (x := fl (y / r) + radians lat0) (X := (y : ℝ) / r + rad lat0) (e := 12 * w) (B := 6)
    (by
      push_cast
      rw [show (fl (y / r) : ℝ) + radians lat0 - (y / r + rad lat0) = (fl (y / r) - y / r) + (radians lat0 - rad lat0) by ring]
      exact (abs_add_le _ _).trans (by linarith))
    ((abs_add_le _ _).trans (by linarith)) (by linarith)
  have d' : |(fl (fl (y / r) + radians lat0) : ℝ) - (y / r + rad lat0)| ≤ 16 * w := by linarith
  refine ⟨?_, ?_, ?_, ?_⟩
  · have := near_step (hm.sinh (fl (x / r))) (sh.trans (mul_le_mul_of_nonneg_left t (by norm_num))) S60 (by linarith)
    linarith
  · have := near_step (hm.cosh (fl (x / r))) (ch.trans (mul_le_mul_of_nonneg_left t (by norm_num))) C60 (by linarith)
    linarith
  · have := (sin_err hm.base d').1
    linarith
  · have := (cos_err hm.base d').1
    linarith

/-- What `rect2geo` returns. -/
theorem back_eq {m : TransLib} (hm : m.Rounds) {lon0 lat0 r x y : ℚ} (hr : r ≠ 0) :
    |fl (m.sin (fl (fl (y / r) + radians lat0)) / m.cosh (fl (x / r)))| ≤ 1 ∧ 1 ≤ m.cosh (fl (x / r)) ∧ (Transverse.init lon0 lat0 r).rect2geo m x y =
      .ok (degrees (fl (radians lon0 + m.atan2 (m.sinh (fl (x / r))) (m.cos (fl (fl (y / r) + radians lat0))))),
        degrees (m.asin (fl (m.sin (fl (fl (y / r) + radians lat0)) / m.cosh (fl (x / r)))))) := by
  have ch : ∀ a : ℚ, 1 ≤ m.cosh a := fun a => le_near (hm.cosh a) double_one (by
    push_cast
    exact Real.one_le_cosh _)
  obtain ⟨d, hd⟩ : ∃ d, d = fl (fl (y / r) + radians lat0) := ⟨_, rfl⟩
  obtain ⟨c, hc⟩ : ∃ c, c = m.cosh (fl (x / r)) := ⟨_, rfl⟩
  have c1 : 1 ≤ c := hc ▸ ch _
  have s1 : |m.sin d| ≤ 1 := by
    have := near_abs_one (hm.base.sin d) (Real.abs_sin_le_one _)
    exact_mod_cast this
  have q1 : |(fl (m.sin d / c) : ℝ)| ≤ 1 := by
    refine fl_abs_one ?_
    have : |m.sin d / c| ≤ 1 := by
      rw [abs_div, abs_of_pos (a := c) (by linarith), div_le_one (by linarith)]
      linarith
    exact_mod_cast this
  have q1' : |fl (m.sin d / c)| ≤ 1 := by exact_mod_cast q1
  obtain ⟨qa, qb⟩ := abs_le.mp q1'
  rw [← hd, ← hc]
  refine ⟨q1', c1, ?_⟩
  rw [Transverse.rect2geo, Transverse.init]
  simp only
  rw [div_ok hr, div_ok hr]
  change (do
    let q ← div (m.sin (fl (fl (y / r) + radians lat0))) (m.cosh (fl (x / r)))
    let lat ← pyAsin m.asin q
    return (degrees (fl (radians lon0 + m.atan2 (m.sinh (fl (x / r))) (m.cos (fl (fl (y / r) + radians lat0))))), degrees lat) : Py (ℚ × ℚ)) = _
  rw [← hd, ← hc, div_ok (by linarith)]
  change (do
    let lat ← pyAsin m.asin (fl (m.sin d / c))
    return (degrees (fl (radians lon0 + m.atan2 (m.sinh (fl (x / r))) (m.cos d))), degrees lat) : Py (ℚ × ℚ)) = _
  rw [pyAsin, if_neg (by push Not; exact ⟨qa, qb⟩)]
  rfl

/-- What the exact formulas give. -/
theorem back_exact {lon0 lat0 r x y : ℝ} (hr : r ≠ 0) : Proj.TransMercator.rect2geo (Proj.Sphere.new (some (lon0, lat0)) (some r)) x y =
    .ok (deg (rad lon0 + Coral.atan2 (Real.sinh (x / r)) (Real.cos (y / r + rad lat0))), deg (Real.arcsin (Real.sin (y / r + rad lat0) / Real.cosh (x / r)))) := by
  have C0 := Real.cosh_pos (x / r)
  have q : |Real.sin (y / r + rad lat0) / Real.cosh (x / r)| ≤ 1 := by
    rw [abs_div, abs_of_pos C0, div_le_one C0]
    exact (Real.abs_sin_le_one _).trans (Real.one_le_cosh _)
  obtain ⟨qa, qb⟩ := abs_le.mp q
  rw [Proj.TransMercator.rect2geo]
  change (do
    let yr ← rdiv y r
    let xr ← rdiv x r
    let q ← rdiv (Real.sin (yr + rad lat0)) (Real.cosh xr)
    let lat ← rasin q
    return (deg (rad lon0 + Coral.atan2 (Real.sinh xr) (Real.cos (yr + rad lat0))), deg lat) : Py (ℝ × ℝ)) = _
  rw [rdiv, rdiv, if_neg hr, if_neg hr]
  change (do
    let q ← rdiv (Real.sin (y / r + rad lat0)) (Real.cosh (x / r))
    let lat ← rasin q
    return (deg (rad lon0 + Coral.atan2 (Real.sinh (x / r)) (Real.cos (y / r + rad lat0))), deg lat) : Py (ℝ × ℝ)) = _
  rw [rdiv, if_neg C0.ne']
  change (do
    let lat ← rasin (Real.sin (y / r + rad lat0) / Real.cosh (x / r))
    return (deg (rad lon0 + Coral.atan2 (Real.sinh (x / r)) (Real.cos (y / r + rad lat0))), deg lat) : Py (ℝ × ℝ)) = _
  rw [rasin, if_neg (by push Not; exact ⟨qa, qb⟩)]
  rfl

/-- The latitude. -/
theorem back_lat {asin : ℚ → ℚ} (ha : RoundsAsin asin) {q : ℚ} {Q : ℝ} (q1 : |q| ≤ 1) (Q1 : |Q| ≤ 1) (hL : |deg (Real.arcsin Q)| ≤ 89) (h : |(q : ℝ) - Q| ≤ 500 * w) :
    |(degrees (asin q) : ℝ) - deg (Real.arcsin Q)| ≤ 2 ^ 23 * w := by
  have hw := w_pos
  have hle := w_tiny
  have hpi := Real.pi_lt_d2
  obtain ⟨qa, qb⟩ := abs_le.mp q1
  obtain ⟨Qa, Qb⟩ := abs_le.mp Q1
  have a := (arcsin_close hL (s := (q : ℝ)) (e := 500 * w) (by positivity) (by linarith) (by rw [rad_deg, Real.sin_arcsin Qa Qb]; exact h)).2
  rw [rad_deg] at a
  have b : |Real.arcsin Q| ≤ 2 := by
    rw [abs_le]
    constructor
    · linarith [Real.neg_pi_div_two_le_arcsin Q]
    · linarith [Real.arcsin_le_pi_div_two Q]
  have c := near_step (ha q qa qb) a b (by linarith)
  have d := degrees_err c (b.trans (by norm_num)) (by linarith)
  linarith

/-- The longitude. -/
theorem back_lon {m : Libm} (hm : m.Rounds) {lon0 s c : ℚ} {S C : ℝ} (l0 : |lon0| ≤ 360) (hs : |(s : ℝ) - S| ≤ 481 * w) (hc : |(c : ℝ) - C| ≤ 17 * w)
    (hn : (1 / 90) ^ 2 ≤ C ^ 2 + S ^ 2) :
    ∃ k : ℤ, |(degrees (fl (radians lon0 + m.atan2 s c)) : ℝ) - (deg (rad lon0 + Coral.atan2 S C) + 360 * k)| ≤ 2 ^ 23 * w := by
  have hw := w_pos
  have hle := w_tiny
  have l0' := abs_real l0
  push_cast at l0'
  obtain ⟨k, hk⟩ := atan2_err hm (by norm_num : (0 : ℝ) < 1 / 90) hn hc hs (by linarith)
  have rl := radians_err (x := lon0) (by linarith)
  have ra := rad_abs l0'
  have at' := abs_real (atan2_range hm s c)
  have pd := piD_real
  refine ⟨k, ?_⟩
  rw [← degrees_turns]
  have A : |(m.atan2 s c : ℝ) - (Coral.atan2 S C + 2 * Real.pi * k)| ≤ 90000 * w := by
    refine hk.trans ?_
    linarith
  have B : |Coral.atan2 S C + 2 * Real.pi * k| ≤ 3.2 := by
    have := abs_sub_abs_le_abs_sub (Coral.atan2 S C + 2 * Real.pi * k) (m.atan2 s c : ℝ)
    rw [abs_sub_comm] at this
    linarith
  have D : |rad lon0 + Coral.atan2 S C + 2 * Real.pi * k| ≤ 10 := by
    rw [add_assoc]
    exact (abs_add_le _ _).trans (by linarith)
  have E := fl_step (x := radians lon0 + m.atan2 s c) (X := rad lon0 + Coral.atan2 S C + 2 * Real.pi * k) (e := 90009 * w) (B := 10)
    (by
      push_cast
      rw [show (radians lon0 : ℝ) + m.atan2 s c - (rad lon0 + Coral.atan2 S C + 2 * Real.pi * k) =
        (radians lon0 - rad lon0) + (m.atan2 s c - (Coral.atan2 S C + 2 * Real.pi * k)) by ring]
      exact (abs_add_le _ _).trans (by linarith)) D (by linarith)
  have F := degrees_err_ten E D (by linarith)
  linarith

/-- C182: within 4 radii of the origin of the plane, and up to the latitude of 89 degrees, `rect2geo` is right up to 2⁻²⁹ degrees; the longitude is
so up to whole turns. -/
theorem C182_back_close (m : TransLib) (hm : m.Rounds) (lon0 lat0 r x y : ℚ) (l0 : |lon0| ≤ 360) (h0 : |lat0| ≤ 90) (hr : 1 ≤ r) (hx : |x| ≤ 4 * r)
    (hy : |y| ≤ 4 * r) (LON LAT : ℝ)
    (hg : Proj.TransMercator.rect2geo (Proj.Sphere.new (some ((lon0 : ℝ), (lat0 : ℝ))) (some (r : ℝ))) x y = .ok (LON, LAT)) (hL : |LAT| ≤ 89) :
    ∃ lon lat, (Transverse.init lon0 lat0 r).rect2geo m x y = .ok (lon, lat) ∧ (∃ k : ℤ, |(lon : ℝ) - (LON + 360 * k)| ≤ 2 ^ (-29 : ℤ)) ∧
      |(lat : ℝ) - LAT| ≤ 2 ^ (-29 : ℤ) := by
  have hw := w_pos
  have hle := w_tiny
  have hr' : (1 : ℝ) ≤ r := by exact_mod_cast hr
  have r0 : (r : ℝ) ≠ 0 := by linarith
  have unit : (2 : ℝ) ^ (-29 : ℤ) = 2 ^ 23 * w := by rw [w_eq]; norm_num
  obtain ⟨sh, ch, sd, cd⟩ := back_numbers hm h0 hr hx hy
  obtain ⟨q1, c1, e⟩ := back_eq hm (lon0 := lon0) (lat0 := lat0) (x := x) (y := y) (by linarith : r ≠ 0)
  have c1' : (1 : ℝ) ≤ m.cosh (fl (x / r)) := by exact_mod_cast c1
  have C1 := Real.one_le_cosh ((x : ℝ) / r)
  have S1 := Real.abs_sin_le_one ((y : ℝ) / r + rad lat0)
  have id1 := Real.cosh_sq ((x : ℝ) / r)
  have id2 := Real.sin_sq_add_cos_sq ((y : ℝ) / r + rad lat0)
  have qe := sine_quotient c1' C1 S1 sd ch
  rw [back_exact r0] at hg
  obtain ⟨rfl, rfl⟩ : deg (rad lon0 + Coral.atan2 (Real.sinh (x / r)) (Real.cos (y / r + rad lat0))) = LON ∧
      deg (Real.arcsin (Real.sin (y / r + rad lat0) / Real.cosh (x / r))) = LAT := by
    injection hg with hg
    injection hg with h1 h2
    exact ⟨h1, h2⟩
  have C0 := Real.cosh_pos ((x : ℝ) / r)
  have Q1 : |Real.sin (y / r + rad lat0) / Real.cosh (x / r)| ≤ 1 := by
    rw [abs_div, abs_of_pos C0, div_le_one C0]
    linarith
  rw [unit]
  refine ⟨_, _, e, back_lon hm.base l0 sh cd ?_, back_lat hm.asin q1 Q1 hL qe⟩
  have big := cos_lat_large hL
  rw [rad_deg] at big
  have b2 := pow_le_pow_left₀ (by norm_num) big 2
  have b3 := Real.sin_sq_add_cos_sq (Real.arcsin (Real.sin (y / r + rad lat0) / Real.cosh (x / r)))
  obtain ⟨Qa, Qb⟩ := abs_le.mp Q1
  rw [Real.sin_arcsin Qa Qb, div_pow] at b3
  have b4 : Real.sin (y / r + rad lat0) ^ 2 = Real.sin (y / r + rad lat0) ^ 2 / Real.cosh (x / r) ^ 2 * Real.cosh (x / r) ^ 2 := by field_simp
  generalize Real.sin (y / r + rad lat0) ^ 2 / Real.cosh (x / r) ^ 2 = u at *
  generalize Real.cos (Real.arcsin (Real.sin (y / r + rad lat0) / Real.cosh (x / r))) ^ 2 = v at *
  have b5 : 1 ≤ Real.cosh ((x : ℝ) / r) ^ 2 := one_le_pow₀ C1
  generalize Real.cosh ((x : ℝ) / r) ^ 2 = C at *
  nlinarith

/-- The hypotheses can be met: a point half a radius east of the origin. -/
example (m : TransLib) (hm : m.Rounds) : ∃ lon lat, (Transverse.init 30 0 6367000).rect2geo m 3183500 0 = .ok (lon, lat) := by
  obtain ⟨lon, lat, h, -⟩ := C182_back_close m hm 30 0 6367000 3183500 0 (by norm_num) (by norm_num) (by norm_num) (by norm_num) (by norm_num) _ _
    (back_exact (by norm_num)) (by
      have : rad ((0 : ℚ) : ℝ) = 0 := by simp [rad]
      rw [this]
      simp [deg])
  exact ⟨lon, lat, h⟩

end Flt
end Coral
