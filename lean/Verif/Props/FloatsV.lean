import Verif.Model.FloatsV
import Verif.Props.FloatsQ
import Verif.Props.FloatsP

/-!
# The oblique Mercator projection and the scale factors on floats (C187, C188)
-/
namespace Coral
namespace Flt

theorem oblique_lon {lon0 lon : ℚ} (l0 : |lon0| ≤ 360) (l1 : |lon| ≤ 360) : |(fl (radians lon - radians lon0) : ℝ) - (rad lon - rad lon0)| ≤ 26 * w := by
  have l0' := abs_real l0
  have l1' := abs_real l1
  push_cast at l0' l1'
  exact lon_err l0' l1'

theorem oblique_lat {m : Libm} (hm : m.Rounds) {lat : ℚ} (h : |lat| ≤ 90) :
    (|(m.sin (radians lat) : ℝ) - Real.sin (rad lat)| ≤ 10 * w ∧ |(m.sin (radians lat) : ℝ)| ≤ 1) ∧
      |(m.cos (radians lat) : ℝ) - Real.cos (rad lat)| ≤ 10 * w ∧ |(m.cos (radians lat) : ℝ)| ≤ 1 := by
  have h' := abs_real h
  push_cast at h'
  have r := radians_err (x := lat) (by linarith)
  have s := sin_err hm r
  have c := cos_err hm r
  exact ⟨⟨s.1.trans (by linarith), s.2⟩, c.1.trans (by linarith), c.2⟩

/-- The number `a` of proj.py:198 is off by less than 72 units. -/
theorem oblique_a_err {m : ObliqLib} (hm : m.Rounds) {lon0 lat0 r lon lat : ℚ} (l0 : |lon0| ≤ 360) (l1 : |lon| ≤ 360) (h0 : |lat0| ≤ 90) (h : |lat| ≤ 90) :
    |((Oblique.init lon0 lat0 r).a m lon lat : ℝ) -
      (Real.sin (rad lat0) * Real.sin (rad lat) - Real.cos (rad lat0) * Real.cos (rad lat) * Real.sin (rad lon - rad lon0))| ≤ 72 * w := by
  obtain ⟨⟨s0, s0'⟩, c0, c0'⟩ := oblique_lat hm.trans.base h0
  obtain ⟨⟨s1, s1'⟩, c1, c1'⟩ := oblique_lat hm.trans.base h
  obtain ⟨sd, sd'⟩ := sin_err hm.trans.base (oblique_lon l0 l1)
  obtain ⟨p, p'⟩ := mul_err s0' s1' (Real.abs_sin_le_one _) s0 s1
  obtain ⟨q, q'⟩ := mul_err c0' c1' (Real.abs_cos_le_one _) c0 c1
  have cc : |Real.cos (rad (lat0 : ℝ)) * Real.cos (rad lat)| ≤ 1 := by
    rw [abs_mul]
    exact mul_le_one₀ (Real.abs_cos_le_one _) (abs_nonneg _) (Real.abs_cos_le_one _)
  obtain ⟨q2, q2'⟩ := mul_err q' sd' cc q sd
  exact (sub_err p' q2' p q2).trans (by linarith)

theorem tan_abs {lat : ℚ} (h : |lat| ≤ 89) : |Real.tan (rad lat)| ≤ 90 := by
  have h' := abs_real h
  push_cast at h'
  have c := cos_lat_large h'
  rw [Real.tan_eq_sin_div_cos, abs_div, abs_of_pos (by linarith : 0 < Real.cos (rad (lat : ℝ))), div_le_iff₀ (by linarith)]
  have := Real.abs_sin_le_one (rad (lat : ℝ))
  linarith

/-- The number `v` of proj.py:199. -/
theorem oblique_v_err {m : ObliqLib} (hm : m.Rounds) {lon0 lat0 r lon lat : ℚ} (l0 : |lon0| ≤ 360) (l1 : |lon| ≤ 360) (h0 : |lat0| ≤ 90) (h : |lat| ≤ 89) :
    |((Oblique.init lon0 lat0 r).v m lon lat : ℝ) -
      (Real.tan (rad lat) * Real.cos (rad lat0) + Real.sin (rad lat0) * Real.sin (rad lon - rad lon0))| ≤ 75040 * w ∧
    |Real.tan (rad lat) * Real.cos (rad lat0) + Real.sin (rad lat0) * Real.sin (rad lon - rad lon0)| ≤ 91 := by
  have hw := w_pos
  have hle := w_tiny
  obtain ⟨⟨s0, s0'⟩, c0, c0'⟩ := oblique_lat hm.trans.base h0
  obtain ⟨sd, sd'⟩ := sin_err hm.trans.base (oblique_lon l0 l1)
  have te := tan_err hm.trans h
  have T := tan_abs h
  have cT : |Real.tan (rad lat) * Real.cos (rad lat0)| ≤ 90 := by
    rw [abs_mul]
    have := mul_le_mul T (Real.abs_cos_le_one (rad (lat0 : ℝ))) (abs_nonneg _) (by norm_num)
    linarith
  have sS : |Real.sin (rad lat0) * Real.sin (rad lon - rad lon0)| ≤ 1 := by
    rw [abs_mul]
    exact mul_le_one₀ (Real.abs_sin_le_one _) (abs_nonneg _) (Real.abs_sin_le_one _)
  have p1 : |((m.tan (radians lat) * m.cos (radians lat0) : ℚ) : ℝ) - Real.tan (rad lat) * Real.cos (rad lat0)| ≤ 74900 * w := by
    push_cast
    have e : (m.tan (radians lat) : ℝ) * m.cos (radians lat0) - Real.tan (rad lat) * Real.cos (rad lat0) =
        (m.tan (radians lat) - Real.tan (rad lat)) * m.cos (radians lat0) + Real.tan (rad lat) * (m.cos (radians lat0) - Real.cos (rad lat0)) := by ring
    rw [e]
    refine (abs_add_le _ _).trans ?_
    rw [abs_mul, abs_mul]
    have a1 := mul_le_mul te c0' (abs_nonneg _) (by linarith)
    have a2 := mul_le_mul T c0 (abs_nonneg _) (by norm_num)
    linarith
  have p2 := fl_step p1 cT (by linarith)
  obtain ⟨q, q'⟩ := mul_err s0' sd' (Real.abs_sin_le_one _) s0 sd
  have V : |Real.tan (rad lat) * Real.cos (rad lat0) + Real.sin (rad lat0) * Real.sin (rad lon - rad lon0)| ≤ 91 :=
    (abs_add_le _ _).trans (by linarith)
  refine ⟨?_, V⟩
  have s : |((fl (m.tan (radians lat) * m.cos (radians lat0)) + fl (m.sin (radians lat0) * m.sin (fl (radians lon - radians lon0))) : ℚ) : ℝ) -
      (Real.tan (rad lat) * Real.cos (rad lat0) + Real.sin (rad lat0) * Real.sin (rad lon - rad lon0))| ≤ 74990 * w := by
    push_cast
    rw [add_sub_add_comm]
    exact (abs_add_le _ _).trans (by linarith)
  exact (fl_step s V (by linarith)).trans (by linarith)

/-- On the near side `atan` of a quotient is the direction. -/
theorem arctan_direction {x : ℝ} (y : ℝ) (h : 0 < x) : Real.arctan (y / x) = Coral.atan2 y x := by
  have hp := Real.pi_pos
  have c := Real.cos_arctan_pos (y / x)
  have e : Real.sin (Real.arctan (y / x)) = y / x * Real.cos (Real.arctan (y / x)) := by
    have := Real.tan_arctan (y / x)
    rw [Real.tan_eq_sin_div_cos, div_eq_iff c.ne'] at this
    exact this
  have a1 := Real.neg_pi_div_two_lt_arctan (y / x)
  have a2 := Real.arctan_lt_pi_div_two (y / x)
  have := atan2_polar (ρ := x / Real.cos (Real.arctan (y / x))) (θ := Real.arctan (y / x)) (by positivity) (by linarith) (by linarith)
  rw [div_mul_cancel₀ _ c.ne', e] at this
  rw [← this]
  congr 1
  field_simp

/-- The quotient `v / h` and its `atan`, when the true point is not at the origin of the plane of `v` and `h`. -/
theorem atan_quot {m : ObliqLib} (hm : m.Rounds) {v h : ℚ} {V H e B n : ℝ} (hv : |(v : ℝ) - V| ≤ e) (hV : |V| ≤ B) (hB : 1 ≤ B) (hh : |(h : ℝ) - H| ≤ 30 * w)
    (h1 : |(h : ℝ)| ≤ 1) (hp : 0 < (h : ℝ)) (Hp : 0 < H) (hn : 0 < n) (hN : n ^ 2 ≤ H ^ 2 + V ^ 2) (he : e + (B + 32) * w ≤ n / 1000) (e1 : e ≤ 1) :
    ∃ q, div v h = .ok q ∧ |(m.atan q : ℝ) - Real.arctan (V / H)| ≤ 2 * (e + (B + 32) * w) / n + 2 * w := by
  have hw := w_pos
  have hle := w_tiny
  have hπ := Real.pi_lt_d2
  have h0 : h ≠ 0 := by
    intro e
    rw [e] at hp
    norm_num at hp
  refine ⟨_, div_ok h0, ?_⟩
  obtain ⟨q, hq⟩ : ∃ q, q = fl (v / h) := ⟨_, rfl⟩
  have qe := fl_err_real (v / h)
  rw [← hq] at qe ⊢
  push_cast at qe
  have vB : |(v : ℝ)| ≤ B + 1 := by
    have := abs_sub_abs_le_abs_sub (v : ℝ) V
    linarith
  have qh : |(q : ℝ) * h - v| ≤ (B + 2) * w := by
    have e : (q : ℝ) * h - v = (q - v / h) * h := by field_simp
    rw [e, abs_mul]
    have a1 := mul_le_mul_of_nonneg_right qe (abs_nonneg (h : ℝ))
    have a2 : |(v : ℝ) / h| * |(h : ℝ)| = |(v : ℝ)| := by rw [← abs_mul, div_mul_cancel₀ _ hp.ne']
    have a4 : |(v : ℝ)| * w ≤ (B + 1) * w := mul_le_mul_of_nonneg_right vB hw.le
    have a5 : w * |(h : ℝ)| ≤ w * 1 := mul_le_mul_of_nonneg_left h1 hw.le
    have a6 : |(v : ℝ) / h| * w * |(h : ℝ)| = |(v : ℝ)| * w := by rw [← a2]; ring
    have a7 : 0 ≤ |(v : ℝ)| * w := by positivity
    refine a1.trans ?_
    ring_nf at a4 a5 a6 a7 ⊢
    linarith
  have qV : |(q : ℝ) * h - V| ≤ e + (B + 2) * w := (abs_sub_le _ (v : ℝ) _).trans (by linarith)
  have sum : 30 * w + (e + (B + 2) * w) = e + (B + 32) * w := by ring
  obtain ⟨k, hk⟩ := atan2_close hn hN hh qV (by linarith)
  rw [sum, ← arctan_direction _ hp, mul_div_cancel_right₀ _ hp.ne', ← arctan_direction _ Hp] at hk
  have small : 2 * (e + (B + 32) * w) / n ≤ 1 / 100 := by
    rw [div_le_iff₀ hn]
    linarith
  have at1 : ∀ t : ℝ, |Real.arctan t| ≤ Real.pi / 2 := fun t =>
    abs_le.mpr ⟨(Real.neg_pi_div_two_lt_arctan t).le, (Real.arctan_lt_pi_div_two t).le⟩
  have k0 := no_turn ((at1 q).trans (by norm_num at hπ ⊢; linarith)) (at1 _) hk small
  rw [k0] at hk
  norm_num at hk
  have A2 : |Real.arctan (V / H)| ≤ 2 := (at1 _).trans (by linarith)
  exact (near_step (hm.atan q) hk A2 (by linarith)).trans (by linarith)

/-- The same on the other side. -/
theorem atan_quot_sides {m : ObliqLib} (hm : m.Rounds) {v h : ℚ} {V H e B n : ℝ} (hv : |(v : ℝ) - V| ≤ e) (hV : |V| ≤ B) (hB : 1 ≤ B)
    (hh : |(h : ℝ) - H| ≤ 30 * w) (h1 : |(h : ℝ)| ≤ 1) (hH : 4096 * w ≤ |H|) (hn : 0 < n) (hN : n ^ 2 ≤ H ^ 2 + V ^ 2)
    (he : e + (B + 32) * w ≤ n / 1000) (e1 : e ≤ 1) :
    ∃ q, div v h = .ok q ∧ |(m.atan q : ℝ) - Real.arctan (V / H)| ≤ 2 * (e + (B + 32) * w) / n + 2 * w := by
  have hw := w_pos
  obtain ⟨b1, b2⟩ := abs_le.mp hh
  rcases le_total 0 H with H0 | H0
  · rw [abs_of_nonneg H0] at hH
    exact atan_quot hm hv hV hB hh h1 (by linarith) (by linarith) hn hN he e1
  · rw [abs_of_nonpos H0] at hH
    have neg : ∀ a b : ℝ, |-a - -b| = |a - b| := fun a b => by rw [show -a - -b = -(a - b) by ring, abs_neg]
    obtain ⟨q, hq, qe⟩ := atan_quot hm (v := -v) (h := -h) (V := -V) (H := -H) (e := e) (B := B) (n := n) (by push_cast; rwa [neg]) (by rwa [abs_neg]) hB
      (by push_cast; rwa [neg]) (by push_cast; rwa [abs_neg]) (by push_cast; linarith) (by linarith) hn (by rwa [neg_sq, neg_sq]) he e1
    rw [neg_div_neg_eq] at qe
    refine ⟨q, ?_, qe⟩
    simp only [div, neg_div_neg_eq, neg_eq_zero] at hq ⊢
    exact hq

/-- C187: up to the latitude of 89 degrees, off the meridians a quarter turn away and away from the edge of the cylinder, `geo2rect` of the oblique Mercator projection is right up
to 2⁻³⁰ and 2⁻³⁹ radii. -/
theorem C187_close_partial (m : ObliqLib) (hm : m.Rounds) (lon0 lat0 r lon lat : ℚ) (l0 : |lon0| ≤ 360) (l1 : |lon| ≤ 360) (h0 : |lat0| ≤ 90) (hr : 1 ≤ r)
    (h : |lat| ≤ 89)
    (hA : |Real.sin (rad lat0) * Real.sin (rad lat) - Real.cos (rad lat0) * Real.cos (rad lat) * Real.sin (rad lon - rad lon0)| ≤ 99 / 100)
    (hH : 2 ^ (-40 : ℤ) ≤ |Real.cos (rad lon - rad lon0)|) :
    ∃ x y X Y, (Oblique.init lon0 lat0 r).geo2rect m lon lat = .ok (x, y) ∧
      Proj.ObliqMercator.geo2rect (Proj.Sphere.new (some ((lon0 : ℝ), (lat0 : ℝ))) (some (r : ℝ))) lon lat = .ok (X, Y) ∧
      |(x : ℝ) - X| ≤ r * 2 ^ (-30 : ℤ) ∧ |(y : ℝ) - Y| ≤ r * 2 ^ (-39 : ℤ) := by
  have hw := w_pos
  have hle := w_tiny
  have hr' : (1 : ℝ) ≤ r := by exact_mod_cast hr
  have h' := abs_real h
  push_cast at h'
  have ae := oblique_a_err hm (r := r) l0 l1 h0 (h.trans (by norm_num))
  obtain ⟨ve, V91⟩ := oblique_v_err hm (r := r) l0 l1 h0 h
  obtain ⟨ce, c1⟩ := cos_err hm.trans.base (oblique_lon l0 l1)
  have c := cos_lat_large h'
  have H0 : (2 : ℝ) ^ (-40 : ℤ) = 4096 * w := by rw [w_eq]; norm_num
  rw [H0] at hH
  have Hp : Real.cos (rad (lon : ℝ) - rad lon0) ≠ 0 := abs_pos.mp (by linarith)
  have ex := Proj.ObliqMercator.geo2rect_eq (Proj.Sphere.new (some ((lon0 : ℝ), (lat0 : ℝ))) (some (r : ℝ))) lon (lat := lat) (by linarith) Hp
  obtain ⟨-, -, ex⟩ := ex
  have VH : (Real.sin (rad lat) * Real.cos (rad lat0) + Real.sin (rad lat0) * (Real.cos (rad lat) * Real.sin (rad lon - rad lon0))) /
      (Real.cos (rad lat) * Real.cos (rad lon - rad lon0)) =
      (Real.tan (rad lat) * Real.cos (rad lat0) + Real.sin (rad lat0) * Real.sin (rad lon - rad lon0)) / Real.cos (rad lon - rad lon0) := by
    rw [Real.tan_eq_sin_div_cos]
    have : Real.cos (rad (lat : ℝ)) ≠ 0 := by linarith
    field_simp
  have rot := Proj.ObliqMercator.rotate (Real.cos (rad lat0)) (Real.sin (rad lat0)) (Real.cos (rad lat)) (Real.sin (rad lat)) (Real.sin (rad lon - rad lon0))
    (Real.cos (rad lon - rad lon0)) (Real.sin_sq_add_cos_sq _) (Real.sin_sq_add_cos_sq _) (Real.sin_sq_add_cos_sq _)
  have n : (14 / 100 : ℝ) ^ 2 ≤ Real.cos (rad lon - rad lon0) ^ 2 +
      (Real.tan (rad lat) * Real.cos (rad lat0) + Real.sin (rad lat0) * Real.sin (rad lon - rad lon0)) ^ 2 := by
    have c0 : Real.cos (rad (lat : ℝ)) ≠ 0 := by linarith
    have id : Real.sin (rad lat) * Real.cos (rad lat0) + Real.sin (rad lat0) * (Real.cos (rad lat) * Real.sin (rad lon - rad lon0)) =
        (Real.tan (rad lat) * Real.cos (rad lat0) + Real.sin (rad lat0) * Real.sin (rad lon - rad lon0)) * Real.cos (rad lat) := by
      rw [Real.tan_eq_sin_div_cos]
      field_simp
    rw [id] at rot
    have c1 : Real.cos (rad (lat : ℝ)) ^ 2 ≤ 1 := Real.cos_sq_le_one _
    generalize Real.sin (rad lat0) * Real.sin (rad lat) - Real.cos (rad lat0) * Real.cos (rad lat) * Real.sin (rad lon - rad lon0) = A at hA rot
    generalize Real.tan (rad lat) * Real.cos (rad lat0) + Real.sin (rad lat0) * Real.sin (rad lon - rad lon0) = V at rot ⊢
    generalize Real.cos (rad lon - rad lon0) = C at rot ⊢
    generalize Real.cos (rad (lat : ℝ)) = c at rot c1
    have A2 : A ^ 2 ≤ (99 / 100) ^ 2 := by
      rw [← sq_abs A]
      exact pow_le_pow_left₀ (abs_nonneg _) hA 2
    have nn : 0 ≤ C ^ 2 + V ^ 2 := by positivity
    have := mul_le_of_le_one_right nn c1
    have e : (C ^ 2 + V ^ 2) * c ^ 2 = 1 - A ^ 2 := by linear_combination rot
    norm_num at A2 ⊢
    linarith
  obtain ⟨q, hq, qe⟩ := atan_quot_sides hm ve V91 (by norm_num) (ce.trans (by linarith)) c1 hH (by norm_num) n (by linarith) (by linarith)
  obtain ⟨A, hAe⟩ : ∃ A, A = Real.sin (rad lat0) * Real.sin (rad lat) - Real.cos (rad lat0) * Real.cos (rad lat) * Real.sin (rad lon - rad lon0) := ⟨_, rfl⟩
  rw [← hAe] at ae hA
  obtain ⟨a, ha⟩ : ∃ a, a = (Oblique.init lon0 lat0 r).a m lon lat := ⟨_, rfl⟩
  rw [← ha] at ae
  have a99 : |(a : ℝ)| ≤ 1 - 9 / 1000 := by
    have := abs_sub_abs_le_abs_sub (a : ℝ) A
    linarith
  have alt : |a| < 1 := by
    have : |(a : ℝ)| < 1 := by linarith
    exact_mod_cast this
  obtain ⟨al, au⟩ := abs_lt.mp alt
  refine ⟨fl (r * m.atan q), fl (r * m.atanh a), _, _, ?_, ex, ?_, ?_⟩
  · rw [Oblique.geo2rect]
    change (div ((Oblique.init lon0 lat0 r).v m lon lat) (m.cos (fl (radians lon - radians lon0))) >>= _) = _
    rw [hq]
    change (m.pyAtanh ((Oblique.init lon0 lat0 r).a m lon lat) >>= _) = _
    rw [← ha, TransLib.pyAtanh, if_neg (by rintro (h | h) <;> linarith)]
    rfl
  · show |_ - (r : ℝ) * Real.arctan ((Real.sin (rad lat) * Real.cos (rad lat0) + Real.sin (rad lat0) * (Real.cos (rad lat) * Real.sin (rad lon - rad lon0))) /
      (Real.cos (rad lat) * Real.cos (rad lon - rad lon0)))| ≤ _
    rw [VH]
    have hπ := Real.pi_lt_d2
    have AB : ∀ t : ℝ, |Real.arctan t| ≤ 2 := fun t =>
      abs_le.mpr ⟨by linarith [Real.neg_pi_div_two_lt_arctan t], by linarith [Real.arctan_lt_pi_div_two t]⟩
    have qe' := qe.trans (by linarith : _ ≤ 1080000 * w)
    refine (scaled hr qe' (AB _) (by linarith)).trans (mul_le_mul_of_nonneg_left ?_ (by linarith))
    rw [show (2 : ℝ) ^ (-30 : ℤ) = 4194304 * w by rw [w_eq]; norm_num]
    linarith
  · show |_ - (r : ℝ) * Real.artanh (Real.sin (rad lat0) * Real.sin (rad lat) - Real.cos (rad lat0) * Real.cos (rad lat) * Real.sin (rad lon - rad lon0))| ≤ _
    rw [← hAe]
    have lip := artanh_lip (a := 9 / 1000) (by norm_num) a99 (hA.trans (by norm_num))
    have lip' : |Real.artanh a - Real.artanh A| ≤ 8001 * w := by
      refine lip.trans ?_
      rw [div_le_iff₀ (by norm_num)]
      linarith
    have AB := artanh_abs (x := A) (by linarith)
    have ne := near_step (hm.trans.atanh a al au) lip' AB (by linarith)
    have s := scaled hr ne AB (by linarith)
    refine s.trans (mul_le_mul_of_nonneg_left ?_ (by linarith))
    rw [show (2 : ℝ) ^ (-39 : ℤ) = 8192 * w by rw [w_eq]; norm_num]
    linarith

/-- The scale factor `1 / math.sqrt(1 - b * b)`. -/
theorem scale_err {m : Libm} (hm : m.Rounds) {b : ℚ} {B : ℝ} (h : |(b : ℝ) - B| ≤ 72 * w) (hB : |B| ≤ 99 / 100) :
    ∃ k, scaleOf m b = .ok k ∧ |(k : ℝ) - 1 / √(1 - B * B)| ≤ 2 ^ (-36 : ℤ) := by
  have hw := w_pos
  have hle := w_tiny
  have b1 : |(b : ℝ)| ≤ 1 := by
    have := abs_sub_abs_le_abs_sub (b : ℝ) B
    linarith
  obtain ⟨p, p'⟩ := mul_err b1 b1 (by linarith : |B| ≤ 1) h h
  have d := sub_err (a := 1) (A := 1) (e := 0) (by norm_num) p' (by norm_num) p
  obtain ⟨x, hx⟩ : ∃ x, x = fl (1 - fl (b * b)) := ⟨_, rfl⟩
  rw [← hx] at d
  obtain ⟨D, hD⟩ : ∃ D, D = 1 - B * B := ⟨_, rfl⟩
  rw [← hD] at d ⊢
  have Dl : 199 / 10000 ≤ D := by
    have : B ^ 2 ≤ (99 / 100) ^ 2 := by
      rw [← sq_abs B]
      exact pow_le_pow_left₀ (abs_nonneg _) hB 2
    rw [hD]
    norm_num at this
    linarith [sq B]
  have Du : D ≤ 1 := by
    rw [hD]
    linarith [mul_self_nonneg B]
  have xp : 0 ≤ (x : ℝ) := by
    have := (abs_le.mp d).1
    linarith
  have rl : 141 / 1000 ≤ √D := Real.le_sqrt_of_sq_le (by norm_num; linarith)
  have ru : √D ≤ 1 := Real.sqrt_le_one.mpr Du
  have root : |√(x : ℝ) - √D| ≤ 1050 * w := by
    have sx := Real.sqrt_nonneg (x : ℝ)
    have e : (√(x : ℝ) - √D) * (√(x : ℝ) + √D) = x - D := by
      have e1 := Real.mul_self_sqrt xp
      have e2 := Real.mul_self_sqrt (by linarith : 0 ≤ D)
      linear_combination e1 - e2
    have a : |√(x : ℝ) - √D| * (141 / 1000) ≤ |√(x : ℝ) - √D| * |√(x : ℝ) + √D| := by
      refine mul_le_mul_of_nonneg_left ?_ (abs_nonneg _)
      rw [abs_of_nonneg (by linarith)]
      linarith
    rw [← abs_mul, e] at a
    linarith
  have xp' : 0 ≤ x := by exact_mod_cast xp
  have near : Nearest (√(x : ℝ)) (m.sqrt x) := ⟨(hm.sqrt x xp').1, (hm.sqrt x xp').2.2⟩
  have s := near_step near root (B := 1) (by rw [abs_of_nonneg (Real.sqrt_nonneg _)]; exact ru) (by linarith)
  obtain ⟨q, hq⟩ : ∃ q, q = m.sqrt x := ⟨_, rfl⟩
  rw [← hq] at s
  have ql : 140 / 1000 ≤ (q : ℝ) := by
    have := (abs_le.mp s).1
    linarith
  have q0 : q ≠ 0 := by
    intro e
    rw [e] at ql
    norm_num at ql
  refine ⟨fl (1 / q), ?_, ?_⟩
  · rw [scaleOf, ← hx, sqrt_ok xp', ← hq]
    exact div_ok q0
  · obtain ⟨S, hS⟩ : ∃ S, S = √D := ⟨_, rfl⟩
    rw [← hS] at s rl ru ⊢
    have inv : |((1 / q : ℚ) : ℝ) - 1 / S| ≤ 53400 * w := by
      push_cast
      have qp : (0 : ℝ) < q := by linarith
      have Sp : 0 < S := by linarith
      have e : 1 / (q : ℝ) - 1 / S = (S - q) / (q * S) := by field_simp
      rw [e, abs_div, abs_of_pos (mul_pos qp Sp), div_le_iff₀ (mul_pos qp Sp), abs_sub_comm]
      have : (140 / 1000 : ℝ) * (141 / 1000) ≤ q * S := mul_le_mul ql rl (by norm_num) qp.le
      have := mul_le_mul_of_nonneg_left this (by linarith : 0 ≤ 53400 * w)
      linarith
    have Sb : |1 / S| ≤ 8 := by
      rw [abs_of_pos (by positivity), div_le_iff₀ (by linarith)]
      linarith
    refine (fl_step inv Sb (by linarith)).trans ?_
    rw [show (2 : ℝ) ^ (-36 : ℤ) = 65536 * w by rw [w_eq]; norm_num]
    linarith

theorem exact_scale {B : ℝ} (hB : |B| < 1) : (do let s ← rsqrt (1 - B * B); rdiv 1 s) = .ok (1 / √(1 - B * B)) := by
  have : 0 < 1 - B * B := by
    have := (sq_lt_one_iff_abs_lt_one B).mpr hB
    linarith [sq B]
  rw [rsqrt_ok this.le]
  exact rdiv_ok (Real.sqrt_pos.mpr this).ne'

/-- C188: away from the edge the scale factor of the transverse Mercator projection is right up to 2⁻³⁶. -/
theorem C188_transverse_partial (m : TransLib) (hm : m.Rounds) (lon0 lat0 r lon lat : ℚ) (l0 : |lon0| ≤ 360) (l1 : |lon| ≤ 360) (h : |lat| ≤ 90)
    (hB : |Real.cos (rad lat) * Real.sin (rad lon - rad lon0)| ≤ 99 / 100) :
    ∃ k K, (Transverse.init lon0 lat0 r).scale m lon lat = .ok k ∧
      Proj.TransMercator.scale (Proj.Sphere.new (some ((lon0 : ℝ), (lat0 : ℝ))) (some (r : ℝ))) lon lat = .ok K ∧ |(k : ℝ) - K| ≤ 2 ^ (-36 : ℤ) := by
  have hw := w_pos
  obtain ⟨k, hk, e⟩ := scale_err hm.base ((b_err hm (lat0 := lat0) (r := r) l0 l1 h).trans (by linarith)) hB
  exact ⟨k, _, hk, exact_scale (lt_of_le_of_lt hB (by norm_num)), e⟩

/-- C188: away from the edge the scale factor of the oblique Mercator projection is right up to 2⁻³⁶. -/
theorem C188_oblique_partial (m : ObliqLib) (hm : m.Rounds) (lon0 lat0 r lon lat : ℚ) (l0 : |lon0| ≤ 360) (l1 : |lon| ≤ 360) (h0 : |lat0| ≤ 90) (h : |lat| ≤ 90)
    (hA : |Real.sin (rad lat0) * Real.sin (rad lat) - Real.cos (rad lat0) * Real.cos (rad lat) * Real.sin (rad lon - rad lon0)| ≤ 99 / 100) :
    ∃ k K, (Oblique.init lon0 lat0 r).scale m lon lat = .ok k ∧
      Proj.ObliqMercator.scale (Proj.Sphere.new (some ((lon0 : ℝ), (lat0 : ℝ))) (some (r : ℝ))) lon lat = .ok K ∧ |(k : ℝ) - K| ≤ 2 ^ (-36 : ℤ) := by
  obtain ⟨k, hk, e⟩ := scale_err hm.trans.base (oblique_a_err hm (r := r) l0 l1 h0 h) hA
  exact ⟨k, _, hk, exact_scale (lt_of_le_of_lt hA (by norm_num)), e⟩

/-- The sine near a quarter turn is 1. -/
theorem sin_quarter {m : Libm} (hm : m.Rounds) {x : ℚ} (h : |(x : ℝ) - Real.pi / 2| ≤ 2 ^ (-27 : ℤ)) : m.sin x = 1 := by
  have c : 1 - ((x : ℝ) - Real.pi / 2) ^ 2 / 2 ≤ Real.sin x := by
    have := Real.one_sub_sq_div_two_le_cos (x := (x : ℝ) - Real.pi / 2)
    rw [Real.cos_sub_pi_div_two] at this
    exact this
  have s : ((x : ℝ) - Real.pi / 2) ^ 2 ≤ (2 ^ (-27 : ℤ)) ^ 2 := by
    rw [← sq_abs]
    exact pow_le_pow_left₀ (abs_nonneg _) h 2
  have s2 : ((2 : ℝ) ^ (-27 : ℤ)) ^ 2 = 1 / 2 ^ 54 := by norm_num
  rw [s2] at s
  refine near_eq (hm.sin x) (lo := 1 - 3 / 2 ^ 56) (hi := 1 + 3 / 2 ^ 56) ?_ ?_ (by decide +kernel) (by decide +kernel)
  · push_cast
    generalize ((x : ℝ) - Real.pi / 2) ^ 2 = t at *
    refine lt_of_lt_of_le ?_ c
    have : (3 : ℝ) / 2 ^ 56 = 3 / 4 * (1 / 2 ^ 54) := by norm_num
    rw [this]
    have : (0 : ℝ) < 1 / 2 ^ 54 := by positivity
    generalize (1 : ℝ) / 2 ^ 54 = z at *
    linarith
  · refine lt_of_le_of_lt (Real.sin_le_one _) ?_
    push_cast
    norm_num

/-- The sine near minus a quarter turn is -1. -/
theorem sin_minus_quarter {m : Libm} (hm : m.Rounds) {x : ℚ} (h : |(x : ℝ) + Real.pi / 2| ≤ 2 ^ (-27 : ℤ)) : m.sin x = -1 := by
  have c : Real.sin x ≤ -(1 - ((x : ℝ) + Real.pi / 2) ^ 2 / 2) := by
    have := Real.one_sub_sq_div_two_le_cos (x := (x : ℝ) + Real.pi / 2)
    rw [Real.cos_add_pi_div_two] at this
    linarith
  have s : ((x : ℝ) + Real.pi / 2) ^ 2 ≤ (2 ^ (-27 : ℤ)) ^ 2 := by
    rw [← sq_abs]
    exact pow_le_pow_left₀ (abs_nonneg _) h 2
  have s2 : ((2 : ℝ) ^ (-27 : ℤ)) ^ 2 = 1 / 2 ^ 54 := by norm_num
  rw [s2] at s
  refine near_eq (hm.sin x) (lo := -1 - 3 / 2 ^ 56) (hi := -1 + 3 / 2 ^ 56) ?_ ?_ (by decide +kernel) (by decide +kernel)
  · refine lt_of_lt_of_le ?_ (Real.neg_one_le_sin _)
    push_cast
    norm_num
  · push_cast
    generalize ((x : ℝ) + Real.pi / 2) ^ 2 = t at *
    refine lt_of_le_of_lt c ?_
    have : (3 : ℝ) / 2 ^ 56 = 3 / 4 * (1 / 2 ^ 54) := by norm_num
    rw [this]
    have : (0 : ℝ) < 1 / 2 ^ 54 := by positivity
    generalize (1 : ℝ) / 2 ^ 54 = z at *
    linarith

theorem quarter_east {m : Libm} (hm : m.Rounds) : m.sin (fl (radians (90 - 2 ^ (-22 : ℤ)) - radians 0)) = 1 := by
  refine sin_quarter hm ?_
  have e : |fl (radians (90 - 2 ^ (-22 : ℤ)) - radians 0) - piD / 2| ≤ 1 / 2 ^ 28 + 1 / 2 ^ 29 := by decide +kernel
  have e' := abs_real e
  have p := piD_err
  have hw := w_tiny
  push_cast at e'
  rw [abs_le] at e' p ⊢
  norm_num at e' p hw ⊢
  constructor <;> linarith

theorem quarter_west {m : Libm} (hm : m.Rounds) : m.sin (fl (radians (-(90 - 2 ^ (-22 : ℤ))) - radians 0)) = -1 := by
  refine sin_minus_quarter hm ?_
  have e : |fl (radians (-(90 - 2 ^ (-22 : ℤ))) - radians 0) + piD / 2| ≤ 1 / 2 ^ 28 + 1 / 2 ^ 29 := by decide +kernel
  have e' := abs_real e
  have p := piD_err
  have hw := w_tiny
  push_cast at e'
  rw [abs_le] at e' p ⊢
  norm_num at e' p hw ⊢
  constructor <;> linarith

/-- Near a quarter turn the cosine is small but not 0. -/
theorem cos_quarter : 1 / 90 * (2 : ℝ) ^ (-22 : ℤ) ≤ Real.cos (rad ((-(90 - 2 ^ (-22 : ℤ)) : ℚ) : ℝ) - rad ((0 : ℚ) : ℝ)) := by
  have hp := Real.pi_pos
  have e : rad ((-(90 - 2 ^ (-22 : ℤ)) : ℚ) : ℝ) - rad ((0 : ℚ) : ℝ) = (2 : ℝ) ^ (-22 : ℤ) * Real.pi / 180 - Real.pi / 2 := by
    simp only [rad]
    push_cast
    ring
  rw [e, Real.cos_sub_pi_div_two]
  have t : (2 : ℝ) ^ (-22 : ℤ) ≤ 1 := by norm_num
  have t0 : (0 : ℝ) < (2 : ℝ) ^ (-22 : ℤ) := by positivity
  generalize (2 : ℝ) ^ (-22 : ℤ) = z at *
  refine le_trans (le_of_eq ?_) (Real.mul_le_sin (x := z * Real.pi / 180) (by positivity) ?_)
  · field_simp
    norm_num
  · have := mul_le_of_le_one_left hp.le t
    linarith

/-- At the latitude of the origin of a projection centred at 8° north, a quarter turn to the west, `a` is greater than 1. -/
theorem oblique_a_eight {m : ObliqLib} (hm : m.Rounds) (r : ℚ) : (Oblique.init 0 8 r).a m (-(90 - 2 ^ (-22 : ℤ))) 8 = 1 + 2 ^ (-52 : ℤ) := by
  have e1 := eight.1
  have c8 : m.cos (5030569068109113 / 36028797018963968) = 4459770905381437 / 4503599627370496 :=
    cos_eq hm.trans.base _ _ (1 / 10 ^ 22) 8 (by decide +kernel) (by decide +kernel) (by decide +kernel) (by decide +kernel)
  have s8 : m.sin (5030569068109113 / 36028797018963968) = 5014239404989977 / 36028797018963968 :=
    sin_eq hm.trans.base _ _ (1 / 10 ^ 22) 8 (by decide +kernel) (by decide +kernel) (by decide +kernel) (by decide +kernel)
  have q := quarter_west hm.trans.base
  simp only [Oblique.a, Oblique.init, e1, c8, s8, q]
  decide +kernel

/-- C187: an oblique Mercator projection with its origin at 8° north raises `ValueError` for a point at the same latitude, nearly a quarter turn to the west of
the origin, although the exact projection has an image for the point. -/
theorem C187_edge_violated (m : ObliqLib) (hm : m.Rounds) (r : ℚ) : (Oblique.init 0 8 r).geo2rect m (-(90 - 2 ^ (-22 : ℤ))) 8 = .error .valueError ∧
    ∃ X Y, Proj.ObliqMercator.geo2rect (Proj.Sphere.new (some (((0 : ℚ) : ℝ), ((8 : ℚ) : ℝ))) (some (r : ℝ))) ((-(90 - 2 ^ (-22 : ℤ)) : ℚ) : ℝ) ((8 : ℚ) : ℝ) =
      .ok (X, Y) := by
  have cq := cos_quarter
  constructor
  · have hw := w_tiny
    have l := oblique_lon (lon0 := 0) (lon := -(90 - 2 ^ (-22 : ℤ))) (by norm_num) (by rw [abs_le]; norm_num)
    have ce := (abs_le.mp (cos_err hm.trans.base l).1).1
    have c0 : m.cos (fl (radians (-(90 - 2 ^ (-22 : ℤ))) - radians 0)) ≠ 0 := by
      intro e
      rw [e] at ce
      push_cast at ce cq
      norm_num at ce cq hw
      linarith
    rw [Oblique.geo2rect]
    change (div _ (m.cos (fl (radians (-(90 - 2 ^ (-22 : ℤ))) - radians 0))) >>= _) = _
    rw [div_ok c0]
    change (m.pyAtanh ((Oblique.init 0 8 r).a m (-(90 - 2 ^ (-22 : ℤ))) 8) >>= _) = _
    rw [oblique_a_eight hm, TransLib.pyAtanh, if_pos (by norm_num)]
    rfl
  · exact ⟨_, _, (Proj.ObliqMercator.geo2rect_eq (Proj.Sphere.new (some (((0 : ℚ) : ℝ), ((8 : ℚ) : ℝ))) (some (r : ℝ))) _ (lat := ((8 : ℚ) : ℝ)) (by norm_num)
      (lt_of_lt_of_le (by positivity) cq).ne').2.2⟩

/-- C188: at the same point the scale factor of the oblique projection raises `ValueError` although it is defined. -/
theorem C188_oblique_edge_violated (m : ObliqLib) (hm : m.Rounds) (r : ℚ) : (Oblique.init 0 8 r).scale m (-(90 - 2 ^ (-22 : ℤ))) 8 = .error .valueError ∧
    ∃ K, Proj.ObliqMercator.scale (Proj.Sphere.new (some (((0 : ℚ) : ℝ), ((8 : ℚ) : ℝ))) (some (r : ℝ))) ((-(90 - 2 ^ (-22 : ℤ)) : ℚ) : ℝ) ((8 : ℚ) : ℝ) = .ok K := by
  constructor
  · rw [Oblique.scale, scaleOf, oblique_a_eight hm, Libm.pySqrt, if_pos (by decide +kernel)]
    rfl
  · have g := Proj.ObliqMercator.geo2rect_eq (Proj.Sphere.new (some (((0 : ℚ) : ℝ), ((8 : ℚ) : ℝ))) (some (r : ℝ))) ((-(90 - 2 ^ (-22 : ℤ)) : ℚ) : ℝ)
      (lat := ((8 : ℚ) : ℝ)) (by norm_num) (lt_of_lt_of_le (by positivity) cos_quarter).ne'
    exact ⟨_, exact_scale (abs_lt.mpr ⟨g.1, g.2.1⟩)⟩

/-- C188: on the equator, nearly a quarter turn to the east of the central meridian, the scale factor of the transverse projection raises
`ZeroDivisionError` although it is defined. -/
theorem C188_transverse_edge_violated (m : TransLib) (hm : m.Rounds) (lat0 r : ℚ) :
    (Transverse.init 0 lat0 r).scale m (90 - 2 ^ (-22 : ℤ)) 0 = .error .zeroDivisionError ∧
    ∃ K, Proj.TransMercator.scale (Proj.Sphere.new (some (((0 : ℚ) : ℝ), (lat0 : ℝ))) (some (r : ℝ))) ((90 - 2 ^ (-22 : ℤ) : ℚ) : ℝ) ((0 : ℚ) : ℝ) = .ok K := by
  constructor
  · have b : (Transverse.init 0 lat0 r).b m (90 - 2 ^ (-22 : ℤ)) 0 = 1 := by
      have q := quarter_east hm.base
      simp only [Transverse.b, Transverse.init, radians_zero, cos_zero hm.base] at q ⊢
      rw [q]
      decide +kernel
    have z : fl (1 - fl (1 * 1)) = 0 := by decide +kernel
    have s0 : m.sqrt 0 = 0 := by
      have := hm.base.sqrt 0 le_rfl
      refine near_id (y := √((0 : ℚ) : ℝ)) ⟨this.1, this.2.2⟩ double_zero ?_
      norm_num
    rw [Transverse.scale, scaleOf, b, z, sqrt_ok le_rfl, s0]
    change div 1 0 = _
    exact if_pos rfl
  · refine ⟨_, exact_scale ?_⟩
    show |Real.cos (rad ((0 : ℚ) : ℝ)) * Real.sin (rad ((90 - 2 ^ (-22 : ℤ) : ℚ) : ℝ) - rad ((0 : ℚ) : ℝ))| < 1
    have cq := lt_of_lt_of_le (by positivity) cos_quarter
    have e : rad ((-(90 - 2 ^ (-22 : ℤ)) : ℚ) : ℝ) - rad ((0 : ℚ) : ℝ) = -(rad ((90 - 2 ^ (-22 : ℤ) : ℚ) : ℝ) - rad ((0 : ℚ) : ℝ)) := by
      simp only [rad]
      push_cast
      ring
    rw [e, Real.cos_neg] at cq
    have z : rad ((0 : ℚ) : ℝ) = 0 := by simp [rad]
    rw [z] at cq ⊢
    rw [Real.cos_zero, one_mul, ← sq_lt_one_iff_abs_lt_one]
    have := Real.sin_sq_add_cos_sq (rad ((90 - 2 ^ (-22 : ℤ) : ℚ) : ℝ) - 0)
    have := sq_pos_of_pos cq
    linarith

/-! ### The way back -/

theorem sinh_small {t : ℝ} (h : |t| ≤ 1) : |Real.sinh t| ≤ 2 * |t| := by
  have a := Real.abs_exp_sub_one_le h
  have b := Real.abs_exp_sub_one_le (x := -t) (by rwa [abs_neg])
  rw [abs_neg] at b
  rw [Real.sinh_eq]
  obtain ⟨a1, a2⟩ := abs_le.mp a
  obtain ⟨b1, b2⟩ := abs_le.mp b
  exact abs_le.mpr ⟨by linarith, by linarith⟩

theorem tanh_lip {a b : ℝ} (h : |a - b| ≤ 1) : |Real.tanh a - Real.tanh b| ≤ 2 * |a - b| := by
  have ca := Real.one_le_cosh a
  have cb := Real.one_le_cosh b
  have e : Real.tanh a - Real.tanh b = Real.sinh (a - b) / (Real.cosh a * Real.cosh b) := by
    rw [Real.tanh_eq_sinh_div_cosh, Real.tanh_eq_sinh_div_cosh, Real.sinh_sub]
    have := (Real.cosh_pos a).ne'
    have := (Real.cosh_pos b).ne'
    field_simp
  have one : 1 ≤ Real.cosh a * Real.cosh b := one_le_mul_of_one_le_of_one_le ca cb
  rw [e, abs_div, abs_of_pos (a := Real.cosh a * Real.cosh b) (by linarith)]
  exact (div_le_self (abs_nonneg _) one).trans (sinh_small h)

theorem tanh_one (t : ℝ) : |Real.tanh t| ≤ 1 := (Real.abs_tanh_lt_one t).le

/-- What the exact formulas give. -/
theorem oblique_exact {lon0 lat0 r x y : ℝ} (hr : r ≠ 0) (hc : Real.cos (x / r) ≠ 0) {LON LAT : ℝ}
    (h : Proj.ObliqMercator.rect2geo (Proj.Sphere.new (some (lon0, lat0)) (some r)) x y = .ok (LON, LAT)) :
    |Real.sin (rad lat0) * Real.tanh (y / r) + Real.cos (rad lat0) * Real.sin (x / r) / Real.cosh (y / r)| ≤ 1 ∧
      LAT = deg (Real.arcsin (Real.sin (rad lat0) * Real.tanh (y / r) + Real.cos (rad lat0) * Real.sin (x / r) / Real.cosh (y / r))) ∧
      LON = deg (rad lon0 + Real.arctan ((Real.sin (rad lat0) * Real.sin (x / r) - Real.cos (rad lat0) * Real.sinh (y / r)) / Real.cos (x / r))) := by
  have C0 := Real.cosh_pos (y / r)
  rw [Proj.ObliqMercator.rect2geo] at h
  change (do
    let xr ← rdiv x r
    let yr ← rdiv y r
    let q ← rdiv (Real.cos (rad lat0) * Real.sin xr) (Real.cosh yr)
    let lat ← rasin (Real.sin (rad lat0) * Real.tanh yr + q)
    let w ← rdiv (Real.sin (rad lat0) * Real.sin xr - Real.cos (rad lat0) * Real.sinh yr) (Real.cos xr)
    return (deg (rad lon0 + Real.arctan w), deg lat) : Py (ℝ × ℝ)) = _ at h
  rw [rdiv_ok hr, rdiv_ok hr] at h
  change (do
    let q ← rdiv (Real.cos (rad lat0) * Real.sin (x / r)) (Real.cosh (y / r))
    let lat ← rasin (Real.sin (rad lat0) * Real.tanh (y / r) + q)
    let w ← rdiv (Real.sin (rad lat0) * Real.sin (x / r) - Real.cos (rad lat0) * Real.sinh (y / r)) (Real.cos (x / r))
    return (deg (rad lon0 + Real.arctan w), deg lat) : Py (ℝ × ℝ)) = _ at h
  rw [rdiv_ok C0.ne'] at h
  change (do
    let lat ← rasin (Real.sin (rad lat0) * Real.tanh (y / r) + Real.cos (rad lat0) * Real.sin (x / r) / Real.cosh (y / r))
    let w ← rdiv (Real.sin (rad lat0) * Real.sin (x / r) - Real.cos (rad lat0) * Real.sinh (y / r)) (Real.cos (x / r))
    return (deg (rad lon0 + Real.arctan w), deg lat) : Py (ℝ × ℝ)) = _ at h
  rw [rasin] at h
  split at h
  · cases h
  · rename_i hq
    push Not at hq
    change (do
      let w ← rdiv (Real.sin (rad lat0) * Real.sin (x / r) - Real.cos (rad lat0) * Real.sinh (y / r)) (Real.cos (x / r))
      return (deg (rad lon0 + Real.arctan w), deg (Real.arcsin (Real.sin (rad lat0) * Real.tanh (y / r) + Real.cos (rad lat0) * Real.sin (x / r) / Real.cosh (y / r)))) :
        Py (ℝ × ℝ)) = _ at h
    rw [rdiv_ok hc] at h
    injection h with h
    injection h with h1 h2
    exact ⟨abs_le.mpr hq, h2.symm, h1.symm⟩

/-- The numbers that `rect2geo` gets from a point. -/
theorem oblique_numbers {m : ObliqLib} (hm : m.Rounds) {r x y : ℚ} (hr : 1 ≤ r) (hx : |x| ≤ 4 * r) (hy : |y| ≤ 4 * r) :
    |(m.sin (fl (x / r)) : ℝ) - Real.sin (x / r)| ≤ 4 * w ∧ |(m.cos (fl (x / r)) : ℝ) - Real.cos (x / r)| ≤ 4 * w ∧
      |(m.sinh (fl (y / r)) : ℝ) - Real.sinh (y / r)| ≤ 481 * w ∧ |(m.cosh (fl (y / r)) : ℝ) - Real.cosh (y / r)| ≤ 481 * w ∧
      |(m.tanh (fl (y / r)) : ℝ) - Real.tanh (y / r)| ≤ 8 * w ∧ |Real.sinh (y / r)| ≤ 60 := by
  have hw := w_pos
  have hle := w_tiny
  have hr' : (1 : ℝ) ≤ r := by exact_mod_cast hr
  have r0 : (0 : ℝ) < r := by linarith
  have four : ∀ {z : ℚ}, |z| ≤ 4 * r → |(z : ℝ) / r| ≤ 4 ∧ |(fl (z / r) : ℝ) - z / r| ≤ 3 * w := by
    intro z hz
    have := abs_real hz
    push_cast at this
    have hz' : |(z : ℝ) / r| ≤ 4 := by
      rw [abs_div, abs_of_pos r0, div_le_iff₀ r0]
      exact this
    have := fl_step (x := z / r) (X := (z : ℝ) / r) (e := 0) (B := 4) (by push_cast; rw [sub_self, abs_zero]) hz' (by norm_num)
    exact ⟨hz', by linarith⟩
  obtain ⟨-, t⟩ := four hx
  obtain ⟨sh, ch, -, -⟩ := back_numbers hm.trans (lat0 := 0) (by norm_num) hr hy hx
  obtain ⟨U, u⟩ := four hy
  have s := (sin_err hm.trans.base t).1
  have c := (cos_err hm.trans.base t).1
  have th := tanh_lip (a := (fl (y / r) : ℝ)) (b := (y : ℝ) / r) (by linarith)
  have th' := near_step (hm.tanh (fl (y / r))) (th.trans (mul_le_mul_of_nonneg_left u (by norm_num))) (tanh_one _) (by linarith)
  exact ⟨by linarith, by linarith, sh, ch, by linarith, (sinh_four U).1⟩

/-- C187: within 4 radii of the origin of the plane, off the lines of the plane where the cosine of the abscissa vanishes, and up to the latitude of 89 degrees,
`rect2geo` of the oblique Mercator projection is right up to 2⁻²⁸ degrees. -/
theorem C187_back_partial (m : ObliqLib) (hm : m.Rounds) (lon0 lat0 r x y : ℚ) (l0 : |lon0| ≤ 360) (h0 : |lat0| ≤ 90) (hr : 1 ≤ r) (hx : |x| ≤ 4 * r)
    (hy : |y| ≤ 4 * r) (hc : 2 ^ (-40 : ℤ) ≤ |Real.cos (x / r)|) (LON LAT : ℝ)
    (hg : Proj.ObliqMercator.rect2geo (Proj.Sphere.new (some ((lon0 : ℝ), (lat0 : ℝ))) (some (r : ℝ))) x y = .ok (LON, LAT)) (hL : |LAT| ≤ 89) :
    ∃ lon lat, (Oblique.init lon0 lat0 r).rect2geo m x y = .ok (lon, lat) ∧ |(lon : ℝ) - LON| ≤ 2 ^ (-28 : ℤ) ∧ |(lat : ℝ) - LAT| ≤ 2 ^ (-28 : ℤ) := by
  have hw := w_pos
  have hle := w_tiny
  have hπ := Real.pi_lt_d2
  have hr' : (1 : ℝ) ≤ r := by exact_mod_cast hr
  have r0 : (r : ℝ) ≠ 0 := by linarith
  have rq : r ≠ 0 := by linarith
  have unit : (2 : ℝ) ^ (-28 : ℤ) = 2 ^ 24 * w := by rw [w_eq]; norm_num
  have H0 : (2 : ℝ) ^ (-40 : ℤ) = 4096 * w := by rw [w_eq]; norm_num
  rw [H0] at hc
  have c0 : Real.cos ((x : ℝ) / r) ≠ 0 := abs_pos.mp (by linarith)
  obtain ⟨Q1, hLAT, hLON⟩ := oblique_exact r0 c0 hg
  obtain ⟨sx, cx, sh, ch, th, S60⟩ := oblique_numbers hm hr hx hy
  obtain ⟨⟨s0, s0'⟩, k0, k0'⟩ := oblique_lat hm.trans.base h0
  have sx1 := near_abs_one (hm.trans.base.sin (fl (x / r))) (Real.abs_sin_le_one _)
  have cx1 := near_abs_one (hm.trans.base.cos (fl (x / r))) (Real.abs_cos_le_one _)
  have th1 := near_abs_one (hm.tanh (fl (y / r))) (tanh_one _)
  have ch1 : (1 : ℝ) ≤ m.cosh (fl (y / r)) := by
    have := le_near (hm.trans.cosh (fl (y / r))) double_one (by push_cast; exact Real.one_le_cosh _)
    exact_mod_cast this
  have CH1 := Real.one_le_cosh ((y : ℝ) / r)
  have ch0 : m.cosh (fl (y / r)) ≠ 0 := by
    intro e
    rw [e] at ch1
    norm_num at ch1
  have C1 : |Real.cos (rad (lat0 : ℝ)) * Real.sin (x / r)| ≤ 1 := by
    rw [abs_mul]
    exact mul_le_one₀ (Real.abs_cos_le_one _) (abs_nonneg _) (Real.abs_sin_le_one _)
  -- the latitude
  obtain ⟨p, p'⟩ := mul_err s0' th1 (Real.abs_sin_le_one _) s0 th
  obtain ⟨q, q'⟩ := mul_err k0' sx1 (Real.abs_cos_le_one _) k0 sx
  have qe := sine_quotient ch1 CH1 C1 (q.trans (by linarith)) ch
  have q1 : |(fl (fl (m.cos (radians lat0) * m.sin (fl (x / r))) / m.cosh (fl (y / r))) : ℝ)| ≤ 1 := by
    refine fl_abs_one ?_
    push_cast
    rw [abs_div, abs_of_pos (a := (m.cosh (fl (y / r)) : ℝ)) (by linarith), div_le_one (by linarith)]
    linarith
  have ge := add_err p' q1 p qe
  obtain ⟨g, hg'⟩ : ∃ g, g = fl (fl (m.sin (radians lat0) * m.tanh (fl (y / r))) + fl (fl (m.cos (radians lat0) * m.sin (fl (x / r))) / m.cosh (fl (y / r)))) := ⟨_, rfl⟩
  rw [← hg'] at ge
  obtain ⟨Q, hQ⟩ : ∃ Q, Q = Real.sin (rad lat0) * Real.tanh (y / r) + Real.cos (rad lat0) * Real.sin (x / r) / Real.cosh (y / r) := ⟨_, rfl⟩
  rw [← hQ] at ge hLAT Q1
  obtain ⟨Qa, Qb⟩ := abs_le.mp Q1
  obtain ⟨g1, gl⟩ := arcsin_close hL (s := (g : ℝ)) (e := 521 * w) (by positivity) (by linarith) (by
    rw [hLAT, rad_deg, Real.sin_arcsin Qa Qb]
    linarith)
  obtain ⟨ga, gb⟩ : -1 ≤ g ∧ g ≤ 1 := by
    obtain ⟨a, b⟩ := abs_le.mp g1
    exact ⟨by exact_mod_cast a, by exact_mod_cast b⟩
  -- the longitude
  have V1 : |((m.cos (radians lat0) * m.sinh (fl (y / r)) : ℚ) : ℝ) - Real.cos (rad lat0) * Real.sinh (y / r)| ≤ 1091 * w := by
    push_cast
    have e : (m.cos (radians lat0) : ℝ) * m.sinh (fl (y / r)) - Real.cos (rad lat0) * Real.sinh (y / r) =
        m.cos (radians lat0) * (m.sinh (fl (y / r)) - Real.sinh (y / r)) + (m.cos (radians lat0) - Real.cos (rad lat0)) * Real.sinh (y / r) := by ring
    rw [e]
    refine (abs_add_le _ _).trans ?_
    rw [abs_mul, abs_mul]
    have a1 := mul_le_mul k0' sh (abs_nonneg _) (by norm_num)
    have a2 := mul_le_mul k0 S60 (abs_nonneg _) (by linarith)
    linarith
  have V60 : |Real.cos (rad (lat0 : ℝ)) * Real.sinh (y / r)| ≤ 60 := by
    rw [abs_mul]
    have := mul_le_mul (Real.abs_cos_le_one (rad (lat0 : ℝ))) S60 (abs_nonneg _) (by norm_num)
    linarith
  have V2 := fl_step V1 V60 (by linarith)
  obtain ⟨o, o'⟩ := mul_err s0' sx1 (Real.abs_sin_le_one _) s0 sx
  have SS : |Real.sin (rad (lat0 : ℝ)) * Real.sin (x / r)| ≤ 1 := by
    rw [abs_mul]
    exact mul_le_one₀ (Real.abs_sin_le_one _) (abs_nonneg _) (Real.abs_sin_le_one _)
  have V61 : |Real.sin (rad (lat0 : ℝ)) * Real.sin (x / r) - Real.cos (rad lat0) * Real.sinh (y / r)| ≤ 61 := (abs_sub _ _).trans (by linarith)
  have V3 : |((fl (m.sin (radians lat0) * m.sin (fl (x / r))) - fl (m.cos (radians lat0) * m.sinh (fl (y / r))) : ℚ) : ℝ) -
      (Real.sin (rad lat0) * Real.sin (x / r) - Real.cos (rad lat0) * Real.sinh (y / r))| ≤ 1138 * w := by
    push_cast
    rw [sub_sub_sub_comm]
    exact (abs_sub _ _).trans (by linarith)
  have V4 := fl_step V3 V61 (by linarith)
  have n : (1 / 90 : ℝ) ^ 2 ≤ Real.cos (x / r) ^ 2 + (Real.sin (rad lat0) * Real.sin (x / r) - Real.cos (rad lat0) * Real.sinh (y / r)) ^ 2 := by
    have big := cos_lat_large hL
    rw [hLAT, rad_deg] at big
    have b2 := pow_le_pow_left₀ (by norm_num) big 2
    have b3 := Real.sin_sq_add_cos_sq (Real.arcsin Q)
    rw [Real.sin_arcsin Qa Qb] at b3
    have i1 := Real.cosh_sq ((y : ℝ) / r)
    have i2 := Real.sin_sq_add_cos_sq ((x : ℝ) / r)
    have i3 := Real.sin_sq_add_cos_sq (rad (lat0 : ℝ))
    have QC : Q * Real.cosh (y / r) = Real.sin (rad lat0) * Real.sinh (y / r) + Real.cos (rad lat0) * Real.sin (x / r) := by
      rw [hQ, Real.tanh_eq_sinh_div_cosh]
      have := (Real.cosh_pos ((y : ℝ) / r)).ne'
      field_simp
    have b5 : 1 ≤ Real.cosh ((y : ℝ) / r) ^ 2 := one_le_pow₀ CH1
    have id : Real.cos (x / r) ^ 2 + (Real.sin (rad lat0) * Real.sin (x / r) - Real.cos (rad lat0) * Real.sinh (y / r)) ^ 2 =
        (1 - Q ^ 2) * Real.cosh (y / r) ^ 2 := by
      have : Q ^ 2 * Real.cosh (y / r) ^ 2 = (Real.sin (rad lat0) * Real.sinh (y / r) + Real.cos (rad lat0) * Real.sin (x / r)) ^ 2 := by
        rw [← QC]
        ring
      linear_combination i2 + (Real.sin ((x : ℝ) / r) ^ 2 + Real.sinh ((y : ℝ) / r) ^ 2) * i3 - i1 + this
    rw [id]
    have : (1 / 90 : ℝ) ^ 2 ≤ 1 - Q ^ 2 := by linarith
    have := mul_le_mul this b5 (by norm_num) (by linarith [sq_nonneg (1 / 90 : ℝ)])
    linarith
  obtain ⟨t, ht, te⟩ := atan_quot_sides hm V4 V61 (by norm_num) (cx.trans (by linarith)) cx1 hc (by norm_num) n (by linarith) (by linarith)
  obtain ⟨T, hT⟩ : ∃ T, T = Real.arctan ((Real.sin (rad lat0) * Real.sin (x / r) - Real.cos (rad lat0) * Real.sinh (y / r)) / Real.cos (x / r)) := ⟨_, rfl⟩
  rw [← hT] at te hLON
  have T2 : |T| ≤ 2 := by
    rw [hT]
    exact abs_le.mpr ⟨by linarith [Real.neg_pi_div_two_lt_arctan ((Real.sin (rad lat0) * Real.sin (x / r) - Real.cos (rad lat0) * Real.sinh (y / r)) / Real.cos (x / r))],
      by linarith [Real.arctan_lt_pi_div_two ((Real.sin (rad lat0) * Real.sin (x / r) - Real.cos (rad lat0) * Real.sinh (y / r)) / Real.cos (x / r))]⟩
  have te' := te.trans (by linarith : _ ≤ 228000 * w)
  have l0' := abs_real l0
  push_cast at l0'
  have rl := radians_err (x := lon0) (by linarith)
  have ra := rad_abs l0'
  have D : |rad lon0 + T| ≤ 10 := (abs_add_le _ _).trans (by linarith)
  have E := fl_step (x := radians lon0 + m.atan t) (X := rad lon0 + T) (e := 228009 * w) (B := 10)
    (by
      push_cast
      rw [add_sub_add_comm]
      exact (abs_add_le _ _).trans (by linarith)) D (by linarith)
  have F := degrees_err_ten E D (by linarith)
  refine ⟨degrees (fl (radians lon0 + m.atan t)), degrees (m.asin g), ?_, ?_, ?_⟩
  · rw [Oblique.rect2geo]
    change (do
      let xr ← div x r
      let yr ← div y r
      let q ← div (fl (m.cos (radians lat0) * m.sin xr)) (m.cosh yr)
      let lat ← pyAsin m.asin (fl (fl (m.sin (radians lat0) * m.tanh yr) + q))
      let t ← div (fl (fl (m.sin (radians lat0) * m.sin xr) - fl (m.cos (radians lat0) * m.sinh yr))) (m.cos xr)
      return (degrees (fl (radians lon0 + m.atan t)), degrees lat) : Py (ℚ × ℚ)) = _
    rw [div_ok rq, div_ok rq]
    change (do
      let q ← div (fl (m.cos (radians lat0) * m.sin (fl (x / r)))) (m.cosh (fl (y / r)))
      let lat ← pyAsin m.asin (fl (fl (m.sin (radians lat0) * m.tanh (fl (y / r))) + q))
      let t ← div (fl (fl (m.sin (radians lat0) * m.sin (fl (x / r))) - fl (m.cos (radians lat0) * m.sinh (fl (y / r))))) (m.cos (fl (x / r)))
      return (degrees (fl (radians lon0 + m.atan t)), degrees lat) : Py (ℚ × ℚ)) = _
    rw [div_ok ch0, ht]
    change (do
      let lat ← pyAsin m.asin (fl (fl (m.sin (radians lat0) * m.tanh (fl (y / r))) + fl (fl (m.cos (radians lat0) * m.sin (fl (x / r))) / m.cosh (fl (y / r)))))
      return (degrees (fl (radians lon0 + m.atan t)), degrees lat) : Py (ℚ × ℚ)) = _
    rw [← hg', pyAsin, if_neg (by push Not; exact ⟨ga, gb⟩)]
    rfl
  · rw [hLON, unit]
    exact F.trans (by linarith)
  · rw [hLAT, unit]
    have gl' : |Real.arcsin (g : ℝ) - Real.arcsin Q| ≤ 91 * (521 * w) := by
      rw [hLAT, rad_deg] at gl
      exact gl
    have b : |Real.arcsin Q| ≤ 2 := abs_le.mpr ⟨by linarith [Real.neg_pi_div_two_le_arcsin Q], by linarith [Real.arcsin_le_pi_div_two Q]⟩
    have c := near_step (hm.trans.asin g ga gb) gl' b (by linarith)
    have d := degrees_err c (b.trans (by norm_num)) (by linarith)
    exact d.trans (by linarith)

/-! ### Concrete cases -/

theorem exists_oblique_rounds : ∃ m : ObliqLib, m.Rounds := by
  obtain ⟨b, hb⟩ := exists_transverse_rounds
  choose f hf using exists_near
  exact ⟨⟨b, fun x => f (Real.arctan x), fun x => f (Real.tanh x)⟩, ⟨hb, fun x => hf _, fun x => hf _⟩⟩

/-- The origin itself, and a point on its meridian. -/
example (m : ObliqLib) (hm : m.Rounds) : (∃ x y, (Oblique.init 30 45 6367000).geo2rect m 30 20 = .ok (x, y)) ∧ ∃ k, (Oblique.init 30 45 6367000).scale m 30 20 = .ok k := by
  have hA : |Real.sin (rad ((45 : ℚ) : ℝ)) * Real.sin (rad ((20 : ℚ) : ℝ)) - Real.cos (rad ((45 : ℚ) : ℝ)) * Real.cos (rad ((20 : ℚ) : ℝ)) *
      Real.sin (rad ((30 : ℚ) : ℝ) - rad ((30 : ℚ) : ℝ))| ≤ 99 / 100 := by
    rw [sub_self, Real.sin_zero, mul_zero, sub_zero, abs_mul]
    have s := Real.abs_sin_sub_sin_le (rad ((20 : ℚ) : ℝ)) 0
    rw [Real.sin_zero, sub_zero, sub_zero] at s
    have t := rad_abs (x := ((20 : ℚ) : ℝ)) (k := 20) (by norm_num)
    have := mul_le_mul (Real.abs_sin_le_one (rad ((45 : ℚ) : ℝ))) (s.trans t) (abs_nonneg _) (by norm_num)
    linarith
  obtain ⟨x, y, -, -, h, -⟩ := C187_close_partial m hm 30 45 6367000 30 20 (by norm_num) (by norm_num) (by norm_num) (by norm_num) (by norm_num) hA (by
    rw [sub_self, Real.cos_zero]; norm_num)
  obtain ⟨k, -, hk, -⟩ := C188_oblique_partial m hm 30 45 6367000 30 20 (by norm_num) (by norm_num) (by norm_num) (by norm_num) hA
  exact ⟨⟨x, y, h⟩, k, hk⟩

/-- The way back from the origin of the plane. -/
example (m : ObliqLib) (hm : m.Rounds) : ∃ lon lat, (Oblique.init 30 45 6367000).rect2geo m 0 0 = .ok (lon, lat) := by
  obtain ⟨lon, lat, h, -⟩ := C187_back_partial m hm 30 45 6367000 0 0 (by norm_num) (by norm_num) (by norm_num) (by norm_num) (by norm_num)
    (by push_cast; rw [zero_div, Real.cos_zero]; norm_num) (deg (rad 30)) 0 (by
      simp [Proj.ObliqMercator.rect2geo, Proj.Sphere.new, rdiv, rasin, bind, Except.bind, pure, Except.pure, deg]
      rw [if_neg (by norm_num)]
      simp) (by norm_num)
  exact ⟨lon, lat, h⟩

end Flt
end Coral
