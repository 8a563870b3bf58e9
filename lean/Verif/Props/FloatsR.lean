import Verif.Props.FloatsP
import Verif.Props.FloatsN
import Verif.Proofs.Chart
import Verif.Model.FloatsR

/-!
# The conic equal-area projection on floats (C186)
-/
namespace Coral
namespace Flt

/-- The cone's constant. -/
noncomputable def coneN (lat1 lat2 : ℝ) : ℝ := (Real.sin (rad lat1) + Real.sin (rad lat2)) / 2

/-- What the root is taken of, on real numbers. -/
noncomputable def coneD (lat1 lat2 lat : ℝ) : ℝ := 1 + Real.sin (rad lat1) * Real.sin (rad lat2) - 2 * coneN lat1 lat2 * Real.sin (rad lat)

theorem cone_half_err {m : Libm} (hm : m.Rounds) {lat1 lat2 : ℚ} (h1 : |lat1| ≤ 90) (h2 : |lat2| ≤ 90) : |(Cone.half m lat1 lat2 : ℝ) - coneN lat1 lat2| ≤ 13 * w := by
  have hw := w_pos
  have hle := w_le
  have h1' := abs_real h1
  have h2' := abs_real h2
  push_cast at h1' h2'
  obtain ⟨s1, s1'⟩ := sin_err hm (radians_err (x := lat1) (by linarith))
  obtain ⟨s2, s2'⟩ := sin_err hm (radians_err (x := lat2) (by linarith))
  have a := add_err s1' s2' s1 s2
  have b := fl_step (x := fl (m.sin (radians lat1) + m.sin (radians lat2)) / 2) (X := coneN lat1 lat2) (e := 11 * w) (B := 1)
    (by
      rw [coneN]
      push_cast
      rw [← sub_div, abs_div, abs_two]
      linarith)
    (by
      rw [coneN, abs_div, abs_two]
      have := abs_add_le (Real.sin (rad lat1)) (Real.sin (rad lat2))
      have := Real.abs_sin_le_one (rad lat1)
      have := Real.abs_sin_le_one (rad lat2)
      linarith) (by linarith)
  rw [Cone.half]
  linarith

theorem coneN_abs (lat1 lat2 : ℝ) : |coneN lat1 lat2| ≤ 1 := by
  rw [coneN, abs_div, abs_two]
  have := abs_add_le (Real.sin (rad lat1)) (Real.sin (rad lat2))
  have := Real.abs_sin_le_one (rad lat1)
  have := Real.abs_sin_le_one (rad lat2)
  linarith

/-- A product of twice the constant and a sine. -/
theorem twice_err {n s : ℚ} {N S : ℝ} (hN : |N| ≤ 1) (hS : |S| ≤ 1) (hn : |(n : ℝ) - N| ≤ 13 * w) (hs : |(s : ℝ) - S| ≤ 10 * w) (hs1 : |(s : ℝ)| ≤ 1) :
    |(fl (fl (2 * n) * s) : ℝ) - 2 * N * S| ≤ 50 * w := by
  have hw := w_pos
  have hle := w_le
  have N2 : |2 * N| ≤ 2 := by rw [abs_mul, abs_two]; linarith
  have a := fl_step (x := 2 * n) (X := 2 * N) (e := 26 * w) (B := 2) (by push_cast; rw [← mul_sub, abs_mul, abs_two]; linarith) N2 (by linarith)
  generalize fl (2 * n) = u at *
  have b : |((u * s : ℚ) : ℝ) - 2 * N * S| ≤ 48 * w := by
    push_cast
    rw [show (u : ℝ) * s - 2 * N * S = (u - 2 * N) * s + 2 * N * (s - S) by ring]
    refine (abs_add_le _ _).trans ?_
    rw [abs_mul, abs_mul (2 * N)]
    have p := mul_le_mul a hs1 (abs_nonneg _) (by linarith)
    have q := mul_le_mul N2 hs (abs_nonneg _) (by norm_num)
    linarith
  have := fl_step b (B := 2) (by
    rw [abs_mul]
    have := mul_le_mul N2 hS (abs_nonneg _) (by norm_num)
    linarith) (by linarith)
  linarith

theorem const_err {m : Libm} (hm : m.Rounds) {lat1 lat2 : ℚ} (h1 : |lat1| ≤ 90) (h2 : |lat2| ≤ 90) :
    |(Cone.const m lat1 lat2 : ℝ) - (1 + Real.sin (rad lat1) * Real.sin (rad lat2))| ≤ 73 * w := by
  have hw := w_pos
  have hle := w_le
  have hh := cone_half_err hm h1 h2
  have h1' := abs_real h1
  push_cast at h1'
  obtain ⟨s1, s1'⟩ := sin_err hm (radians_err (x := lat1) (by linarith))
  obtain ⟨c1, c1'⟩ := cos_err hm (radians_err (x := lat1) (by linarith))
  obtain ⟨e, -⟩ := mul_err c1' c1' (Real.abs_cos_le_one _) c1 c1
  have t := twice_err (coneN_abs lat1 lat2) (Real.abs_sin_le_one (rad lat1)) hh (s1.trans (by linarith)) s1'
  have eq : 1 + Real.sin (rad lat1) * Real.sin (rad lat2) = Real.cos (rad lat1) * Real.cos (rad lat1) + 2 * coneN lat1 lat2 * Real.sin (rad lat1) := by
    rw [coneN]
    linear_combination -Real.sin_sq_add_cos_sq (rad lat1)
  have B : |1 + Real.sin (rad lat1) * Real.sin (rad lat2)| ≤ 2 := by
    refine (abs_add_le _ _).trans ?_
    rw [abs_one, abs_mul]
    have := mul_le_one₀ (Real.abs_sin_le_one (rad lat1)) (abs_nonneg _) (Real.abs_sin_le_one (rad lat2))
    linarith
  rw [Cone.const]
  have := fl_step (x := fl (m.cos (radians lat1) * m.cos (radians lat1)) + fl (fl (2 * Cone.half m lat1 lat2) * m.sin (radians lat1)))
    (X := 1 + Real.sin (rad lat1) * Real.sin (rad lat2)) (e := 71 * w) (B := 2)
    (by
      rw [eq]
      push_cast
      generalize (fl (m.cos (radians lat1) * m.cos (radians lat1)) : ℝ) = x at *
      generalize (fl (fl (2 * Cone.half m lat1 lat2) * m.sin (radians lat1)) : ℝ) = y at *
      generalize Real.cos (rad lat1) * Real.cos (rad lat1) = X at *
      generalize 2 * coneN lat1 lat2 * Real.sin (rad lat1) = Y at *
      rw [show x + y - (X + Y) = (x - X) + (y - Y) by ring]
      exact (abs_add_le _ _).trans (by linarith)) B (by linarith)
  linarith

/-- The number under the root is off by at most 126 units. -/
theorem under_err {m : Libm} (hm : m.Rounds) {lat1 lat2 lat : ℚ} (h1 : |lat1| ≤ 90) (h2 : |lat2| ≤ 90) (h : |lat| ≤ 90) (r p0 : ℚ) :
    |((Cone.mk r (Cone.half m lat1 lat2) (Cone.const m lat1 lat2) p0).under m lat : ℝ) - coneD lat1 lat2 lat| ≤ 126 * w ∧ |coneD lat1 lat2 lat| ≤ 4 := by
  have hw := w_pos
  have hle := w_le
  have hh := cone_half_err hm h1 h2
  have hc := const_err hm h1 h2
  have h' := abs_real h
  push_cast at h'
  obtain ⟨s, s'⟩ := sin_err hm (radians_err (x := lat) (by linarith))
  have t := twice_err (coneN_abs lat1 lat2) (Real.abs_sin_le_one (rad lat)) hh (s.trans (by linarith)) s'
  have B : |coneD lat1 lat2 lat| ≤ 4 := by
    rw [coneD]
    have a := mul_le_one₀ (Real.abs_sin_le_one (rad lat1)) (abs_nonneg _) (Real.abs_sin_le_one (rad lat2))
    have b := mul_le_one₀ (coneN_abs lat1 lat2) (abs_nonneg _) (Real.abs_sin_le_one (rad lat))
    rw [← abs_mul] at a b
    rw [mul_assoc]
    generalize Real.sin (rad lat1) * Real.sin (rad lat2) = x at *
    generalize coneN lat1 lat2 * Real.sin (rad lat) = y at *
    rw [abs_le] at *
    constructor <;> linarith [a.1, a.2, b.1, b.2]
  refine ⟨?_, B⟩
  simp only [Cone.under]
  have := fl_step (x := Cone.const m lat1 lat2 - fl (fl (2 * Cone.half m lat1 lat2) * m.sin (radians lat))) (X := coneD lat1 lat2 lat) (e := 123 * w) (B := 4)
    (by
      rw [coneD]
      push_cast
      generalize (Cone.const m lat1 lat2 : ℝ) = x at *
      generalize (fl (fl (2 * Cone.half m lat1 lat2) * m.sin (radians lat)) : ℝ) = y at *
      generalize 1 + Real.sin (rad lat1) * Real.sin (rad lat2) = X at *
      generalize 2 * coneN lat1 lat2 * Real.sin (rad lat) = Y at *
      rw [show x - y - (X - Y) = (x - X) - (y - Y) by ring]
      exact (abs_sub _ _).trans (by linarith)) B (by linarith)
  linarith

/-- The sizes of `w / h²`. -/
theorem unit_sizes {h : ℝ} (h0 : 2 ^ (-16 : ℤ) ≤ h) (h1 : h ≤ 1) : 0 < h ∧ 0 < w / h ^ 2 ∧ 1000000 * (w / h ^ 2) ≤ 1 ∧ w / h ≤ w / h ^ 2 ∧ w ≤ w / h ∧ w = w / h ^ 2 * h * h ∧
    w / h = w / h ^ 2 * h := by
  have hw := w_pos
  have hp : 0 < h := lt_of_lt_of_le (by positivity) h0
  refine ⟨hp, by positivity, ?_, ?_, ?_, ?_, ?_⟩
  · rw [← mul_div_assoc, div_le_one (by positivity)]
    have a : ((2 : ℝ) ^ (-16 : ℤ)) ^ 2 ≤ h ^ 2 := pow_le_pow_left₀ (by positivity) h0 2
    have b : 1000000 * w ≤ ((2 : ℝ) ^ (-16 : ℤ)) ^ 2 := by rw [w_eq]; norm_num
    exact b.trans a
  · exact div_le_div_of_nonneg_left hw.le (by positivity) (by nlinarith)
  · rw [le_div_iff₀ hp]
    nlinarith
  · field_simp
  · field_simp

/-- A root as the code computes it. -/
theorem root_err {m : Libm} (hm : m.Rounds) {d : ℚ} {D h : ℝ} (h0 : 2 ^ (-16 : ℤ) ≤ h) (h1 : h ≤ 1) (hD : h ^ 2 ≤ D) (D4 : D ≤ 4) (hd : |(d : ℝ) - D| ≤ 126 * w) :
    m.pySqrt d = .ok (m.sqrt d) ∧ |(m.sqrt d : ℝ) - √D| ≤ 128 * (w / h) ∧ √D ≤ 2 := by
  have hw := w_pos
  obtain ⟨hp, V0, V1, a1, a2, a3, a4⟩ := unit_sizes h0 h1
  have hs : 1000000 * w ≤ h ^ 2 := by
    rw [← mul_div_assoc, div_le_one (by positivity)] at V1
    exact V1
  obtain ⟨d1, d2⟩ := abs_le.mp hd
  have d0 : (0 : ℝ) ≤ d := by linarith
  have d0' : 0 ≤ d := by exact_mod_cast d0
  have S2 : √D ≤ 2 := by
    rw [Real.sqrt_le_left (by norm_num)]
    linarith
  have Sh : h ≤ √D := Real.le_sqrt_of_sq_le hD
  refine ⟨sqrt_ok d0', ?_, S2⟩
  have e : |√(d : ℝ) - √D| ≤ 126 * (w / h) := by
    have a := Real.sq_sqrt d0
    have b := Real.sq_sqrt (by linarith [sq_nonneg h] : 0 ≤ D)
    have c := Real.sqrt_nonneg (d : ℝ)
    have f : |√(d : ℝ) - √D| * (√d + √D) ≤ 126 * w := by
      rw [show |√(d : ℝ) - √D| * (√d + √D) = |(√(d : ℝ) - √D) * (√d + √D)| by rw [abs_mul, abs_of_nonneg (a := √(d : ℝ) + √D) (by linarith)],
        show (√(d : ℝ) - √D) * (√d + √D) = d - D by linear_combination a - b]
      exact hd
    rw [← mul_div_assoc, le_div_iff₀ hp]
    refine le_trans ?_ f
    exact mul_le_mul_of_nonneg_left (by linarith) (abs_nonneg _)
  have := near_step ⟨(hm.sqrt _ d0').1, (hm.sqrt _ d0').2.2⟩ e (B := 2) (by rw [abs_of_nonneg (Real.sqrt_nonneg _)]; exact S2) (by linarith)
  linarith

/-- The quotient `r·s/n`. -/
theorem cone_err {r s n : ℚ} {S N h : ℝ} (hr : 1 ≤ r) (h0 : 2 ^ (-16 : ℤ) ≤ h) (h1 : h ≤ 1) (hN : h ≤ |N|) (hn : |(n : ℝ) - N| ≤ 13 * w) (S0 : 0 ≤ S) (S2 : S ≤ 2)
    (hs : |(s : ℝ) - S| ≤ 128 * (w / h)) : n ≠ 0 ∧ |S / N| ≤ 2 / h ∧ |(fl (fl (r * s) / n) : ℝ) - r * (S / N)| ≤ r * (170 * (w / h ^ 2)) := by
  have hw := w_pos
  obtain ⟨hp, V0, V1, a1, a2, a3, a4⟩ := unit_sizes h0 h1
  have hr' : (1 : ℝ) ≤ r := by exact_mod_cast hr
  have r0 : (0 : ℝ) ≤ r := by linarith
  have hs1 : 1000000 * w ≤ h := by
    have : w / h ≤ 1 / 1000000 := by linarith
    rw [div_le_iff₀ hp] at this
    linarith
  have n1 : 99 / 100 * h ≤ |(n : ℝ)| := by
    have := abs_sub_abs_le_abs_sub N n
    rw [abs_sub_comm] at this
    linarith
  have n0 : (0 : ℝ) < |(n : ℝ)| := by linarith
  have nn : (n : ℝ) ≠ 0 := abs_pos.mp n0
  have N0 : 0 < |N| := by linarith
  have NN : N ≠ 0 := abs_pos.mp N0
  have SN : |S / N| ≤ 2 / h := by
    rw [abs_div, abs_of_nonneg S0]
    exact div_le_div₀ (by norm_num) S2 hp hN
  refine ⟨by exact_mod_cast nn, SN, ?_⟩
  have u := scaled hr hs (B := 2) (by rw [abs_of_nonneg S0]; exact S2) (by linarith)
  have u' : |(fl (r * s) : ℝ) - r * S| ≤ r * (130 * (w / h)) := u.trans (mul_le_mul_of_nonneg_left (by linarith) r0)
  generalize fl (r * s) = v at *
  have q : |(v : ℝ) / n - r * (S / N)| ≤ r * (160 * (w / h ^ 2)) := by
    have e : (v : ℝ) / n - r * (S / N) = (v - r * S) / n + r * (S / N) * ((N - n) / n) := by
      field_simp
      ring
    rw [e]
    refine (abs_add_le _ _).trans ?_
    have p1 : |((v : ℝ) - r * S) / n| ≤ r * (132 * (w / h ^ 2)) := by
      rw [abs_div, div_le_iff₀ n0]
      refine u'.trans ?_
      rw [mul_assoc]
      refine mul_le_mul_of_nonneg_left ?_ r0
      rw [a4]
      have := mul_le_mul_of_nonneg_left n1 (by positivity : 0 ≤ 132 * (w / h ^ 2))
      have : 0 ≤ w / h ^ 2 * h := by positivity
      nlinarith
    have p2 : |(r : ℝ) * (S / N) * ((N - n) / n)| ≤ r * (27 * (w / h ^ 2)) := by
      rw [mul_assoc, abs_mul, abs_of_nonneg r0]
      refine mul_le_mul_of_nonneg_left ?_ r0
      rw [abs_mul]
      have k : |(N - n) / (n : ℝ)| ≤ 13.2 * (w / h) := by
        rw [abs_div, div_le_iff₀ n0, abs_sub_comm]
        refine hn.trans ?_
        have := mul_le_mul_of_nonneg_left n1 (by positivity : 0 ≤ 13.2 * (w / h))
        have e2 : 13.2 * (w / h) * (99 / 100 * h) = 13.2 * (99 / 100) * w := by field_simp
        rw [e2] at this
        linarith
      have := mul_le_mul SN k (abs_nonneg _) (by positivity)
      have e3 : 2 / h * (13.2 * (w / h)) = 26.4 * (w / h ^ 2) := by field_simp; norm_num
      rw [e3] at this
      linarith
    have := mul_le_mul_of_nonneg_left (by linarith : 132 * (w / h ^ 2) + 27 * (w / h ^ 2) ≤ 160 * (w / h ^ 2)) r0
    linarith
  have e := fl_err_real (v / n)
  push_cast at e
  have b : |(v : ℝ) / n| ≤ r * (3 / h) := by
    have a := abs_sub_abs_le_abs_sub ((v : ℝ) / n) (r * (S / N))
    have c : |(r : ℝ) * (S / N)| ≤ r * (2 / h) := by
      rw [abs_mul, abs_of_nonneg r0]
      exact mul_le_mul_of_nonneg_left SN r0
    have d : (r : ℝ) * (160 * (w / h ^ 2)) ≤ r * (1 / h) := by
      refine mul_le_mul_of_nonneg_left ?_ r0
      have : 1 ≤ 1 / h := by rw [le_div_iff₀ hp]; linarith
      linarith
    have f : (r : ℝ) * (3 / h) = r * (2 / h) + r * (1 / h) := by ring
    linarith
  have g := mul_le_mul_of_nonneg_right b (by linarith : 0 ≤ w / 2)
  have g2 : (r : ℝ) * (3 / h) * (w / 2) = r * (1.5 * (w / h)) := by field_simp; norm_num
  have g3 : (r : ℝ) * (1.5 * (w / h)) ≤ r * (1.5 * (w / h ^ 2)) := mul_le_mul_of_nonneg_left (by linarith) r0
  have g4 : w ≤ r * (w / h ^ 2) := (a2.trans a1).trans (le_mul_of_one_le_left V0.le hr')
  have t := abs_sub_le (fl (v / n) : ℝ) (v / n) (r * (S / N))
  have z : (r : ℝ) * (170 * (w / h ^ 2)) = r * (160 * (w / h ^ 2)) + r * (1.5 * (w / h ^ 2)) + 8.5 * (r * (w / h ^ 2)) := by ring
  rw [z]
  linarith

/-- The product `p·sin t` or `p·cos t`. -/
theorem cone_coord {r p q : ℚ} {P Q h : ℝ} (hr : 1 ≤ r) (h0 : 2 ^ (-16 : ℤ) ≤ h) (h1 : h ≤ 1) (hP : |P| ≤ 2 / h) (hp : |(p : ℝ) - r * P| ≤ r * (170 * (w / h ^ 2)))
    (hQ : |Q| ≤ 1) (hq : |(q : ℝ) - Q| ≤ 100 * w) (hq1 : |(q : ℝ)| ≤ 1) :
    |(fl (p * q) : ℝ) - r * (P * Q)| ≤ r * (380 * (w / h ^ 2)) ∧ |(r : ℝ) * (P * Q)| ≤ r * (2 / h) := by
  have hw := w_pos
  obtain ⟨hp0, V0, V1, a1, a2, a3, a4⟩ := unit_sizes h0 h1
  have hr' : (1 : ℝ) ≤ r := by exact_mod_cast hr
  have r0 : (0 : ℝ) ≤ r := by linarith
  have PQ : |(r : ℝ) * (P * Q)| ≤ r * (2 / h) := by
    rw [abs_mul, abs_of_nonneg r0]
    refine mul_le_mul_of_nonneg_left ?_ r0
    rw [abs_mul]
    have := mul_le_mul hP hQ (abs_nonneg _) (by positivity)
    linarith
  refine ⟨?_, PQ⟩
  have e1 : |(p : ℝ) * q - r * (P * Q)| ≤ r * (370 * (w / h ^ 2)) := by
    rw [show (p : ℝ) * q - r * (P * Q) = (p - r * P) * q + r * (P * (q - Q)) by ring]
    refine (abs_add_le _ _).trans ?_
    rw [abs_mul, abs_mul (r : ℝ), abs_of_nonneg r0, abs_mul P]
    have a := mul_le_mul hp hq1 (abs_nonneg _) (by positivity)
    have b := mul_le_mul hP hq (abs_nonneg _) (by positivity)
    have c : 2 / h * (100 * w) = 200 * (w / h) := by field_simp; norm_num
    rw [c] at b
    have d := mul_le_mul_of_nonneg_left (b.trans (by linarith : 200 * (w / h) ≤ 200 * (w / h ^ 2))) r0
    have f : (r : ℝ) * (370 * (w / h ^ 2)) = r * (170 * (w / h ^ 2)) * 1 + r * (200 * (w / h ^ 2)) := by ring
    linarith
  have e := fl_err_real (p * q)
  push_cast at e
  have b : |(p : ℝ) * q| ≤ r * (3 / h) := by
    have a := abs_sub_abs_le_abs_sub ((p : ℝ) * q) (r * (P * Q))
    have d : (r : ℝ) * (370 * (w / h ^ 2)) ≤ r * (1 / h) := by
      refine mul_le_mul_of_nonneg_left ?_ r0
      have : 1 ≤ 1 / h := by rw [le_div_iff₀ hp0]; linarith
      linarith
    have f : (r : ℝ) * (3 / h) = r * (2 / h) + r * (1 / h) := by ring
    linarith
  have g := mul_le_mul_of_nonneg_right b (by linarith : 0 ≤ w / 2)
  have g2 : (r : ℝ) * (3 / h) * (w / 2) = r * (1.5 * (w / h)) := by field_simp; norm_num
  have g3 : (r : ℝ) * (1.5 * (w / h)) ≤ r * (1.5 * (w / h ^ 2)) := mul_le_mul_of_nonneg_left (by linarith) r0
  have g4 : w ≤ r * (w / h ^ 2) := (a2.trans a1).trans (le_mul_of_one_le_left V0.le hr')
  have t := abs_sub_le (fl (p * q) : ℝ) (p * q) (r * (P * Q))
  have z : (r : ℝ) * (380 * (w / h ^ 2)) = r * (370 * (w / h ^ 2)) + r * (1.5 * (w / h ^ 2)) + 8.5 * (r * (w / h ^ 2)) := by ring
  rw [z]
  linarith

/-- The difference `p0 - p·cos t`. -/
theorem cone_diff {r a b : ℚ} {A B h : ℝ} (hr : 1 ≤ r) (h0 : 2 ^ (-16 : ℤ) ≤ h) (h1 : h ≤ 1) (hA : |A| ≤ 2 / h) (ha : |(a : ℝ) - r * A| ≤ r * (170 * (w / h ^ 2)))
    (hB : |(r : ℝ) * B| ≤ r * (2 / h)) (hb : |(b : ℝ) - r * B| ≤ r * (380 * (w / h ^ 2))) : |(fl (a - b) : ℝ) - (r * A - r * B)| ≤ r * (1024 * (w / h ^ 2)) := by
  have hw := w_pos
  obtain ⟨hp0, V0, V1, a1, a2, a3, a4⟩ := unit_sizes h0 h1
  have hr' : (1 : ℝ) ≤ r := by exact_mod_cast hr
  have r0 : (0 : ℝ) ≤ r := by linarith
  have e1 : |(a : ℝ) - b - (r * A - r * B)| ≤ r * (550 * (w / h ^ 2)) := by
    rw [show (a : ℝ) - b - (r * A - r * B) = (a - r * A) - (b - r * B) by ring]
    refine (abs_sub _ _).trans ?_
    have f : (r : ℝ) * (550 * (w / h ^ 2)) = r * (170 * (w / h ^ 2)) + r * (380 * (w / h ^ 2)) := by ring
    linarith
  have hA' : |(r : ℝ) * A| ≤ r * (2 / h) := by
    rw [abs_mul, abs_of_nonneg r0]
    exact mul_le_mul_of_nonneg_left hA r0
  have e := fl_err_real (a - b)
  push_cast at e
  have k : |(a : ℝ) - b| ≤ r * (5 / h) := by
    have a := abs_sub_abs_le_abs_sub ((a : ℝ) - b) (r * A - r * B)
    have a' := abs_sub ((r : ℝ) * A) (r * B)
    have d : (r : ℝ) * (550 * (w / h ^ 2)) ≤ r * (1 / h) := by
      refine mul_le_mul_of_nonneg_left ?_ r0
      have : 1 ≤ 1 / h := by rw [le_div_iff₀ hp0]; linarith
      linarith
    have f : (r : ℝ) * (5 / h) = r * (2 / h) + r * (2 / h) + r * (1 / h) := by ring
    linarith
  have g := mul_le_mul_of_nonneg_right k (by linarith : 0 ≤ w / 2)
  have g2 : (r : ℝ) * (5 / h) * (w / 2) = r * (2.5 * (w / h)) := by field_simp; norm_num
  have g3 : (r : ℝ) * (2.5 * (w / h)) ≤ r * (2.5 * (w / h ^ 2)) := mul_le_mul_of_nonneg_left (by linarith) r0
  have g4 : w ≤ r * (w / h ^ 2) := (a2.trans a1).trans (le_mul_of_one_le_left V0.le hr')
  have t := abs_sub_le (fl (a - b) : ℝ) (a - b) (r * A - r * B)
  have z : (r : ℝ) * (1024 * (w / h ^ 2)) = r * (550 * (w / h ^ 2)) + r * (2.5 * (w / h ^ 2)) + 471.5 * (r * (w / h ^ 2)) := by ring
  rw [z]
  linarith

/-- The angle of the cone. -/
theorem cone_turn_err {n lon : ℚ} {N : ℝ} (hN : |N| ≤ 1) (hn : |(n : ℝ) - N| ≤ 13 * w) (l : |lon| ≤ 360) : |(fl (n * radians lon) : ℝ) - N * rad lon| ≤ 98 * w := by
  have hw := w_pos
  have hle := w_le
  have l' := abs_real l
  push_cast at l'
  have a := radians_err (x := lon) (by linarith)
  have b := rad_abs l'
  have := fl_step (x := n * radians lon) (X := N * rad lon) (e := 93.5 * w) (B := 6.5)
    (by
      push_cast
      rw [show (n : ℝ) * radians lon - N * rad lon = (n - N) * radians lon + N * (radians lon - rad lon) by ring]
      refine (abs_add_le _ _).trans ?_
      rw [abs_mul, abs_mul N]
      have c : |(radians lon : ℝ)| ≤ 6.49 := by
        have := abs_sub_abs_le_abs_sub (radians lon : ℝ) (rad lon)
        linarith
      have p := mul_le_mul hn c (abs_nonneg _) (by linarith)
      have q := mul_le_mul hN a (abs_nonneg _) (by linarith)
      linarith)
    (by
      rw [abs_mul]
      have := mul_le_mul hN b (abs_nonneg _) (by linarith)
      linarith) (by linarith)
  linarith

/-- The cone on real numbers. -/
theorem cone_real (lat1 lat2 r : ℝ) (hn : coneN lat1 lat2 ≠ 0) : Proj.Conic.new (some (lat1, lat2)) (some r) = .ok
    ⟨r, coneN lat1 lat2, 1 + Real.sin (rad lat1) * Real.sin (rad lat2), r * √(1 + Real.sin (rad lat1) * Real.sin (rad lat2)) / coneN lat1 lat2⟩ :=
  Proj.Conic.new_eq lat1 lat2 (some r) fun h => hn (by rw [coneN, h, zero_div])

theorem cone_const_ge (lat1 lat2 : ℝ) : |coneN lat1 lat2| ≤ 1 + Real.sin (rad lat1) * Real.sin (rad lat2) ∧ 1 + Real.sin (rad lat1) * Real.sin (rad lat2) ≤ 4 := by
  rw [coneN, abs_le]
  have a := Real.sin_le_one (rad lat1)
  have b := Real.sin_le_one (rad lat2)
  have c := Real.neg_one_le_sin (rad lat1)
  have d := Real.neg_one_le_sin (rad lat2)
  generalize Real.sin (rad lat1) = x at *
  generalize Real.sin (rad lat2) = y at *
  have p1 := mul_nonneg (sub_nonneg.mpr a) (sub_nonneg.mpr b)
  have p2 := mul_nonneg (by linarith : 0 ≤ 1 + x) (by linarith : 0 ≤ 1 + y)
  have p3 := mul_nonneg (sub_nonneg.mpr a) (by linarith : 0 ≤ 1 + y)
  refine ⟨⟨?_, ?_⟩, ?_⟩ <;> nlinarith

/-- The constructor on floats. -/
theorem cone_init {m : Libm} (hm : m.Rounds) {lat1 lat2 r : ℚ} {h : ℝ} (h1 : |lat1| ≤ 90) (h2 : |lat2| ≤ 90) (hr : 1 ≤ r) (hh0 : 2 ^ (-16 : ℤ) ≤ h) (hh1 : h ≤ 1)
    (hN : h ≤ |coneN lat1 lat2|) : ∃ p0, Cone.init m lat1 lat2 r = .ok ⟨r, Cone.half m lat1 lat2, Cone.const m lat1 lat2, p0⟩ ∧
      |√(1 + Real.sin (rad lat1) * Real.sin (rad lat2)) / coneN lat1 lat2| ≤ 2 / h ∧
      |(p0 : ℝ) - r * (√(1 + Real.sin (rad lat1) * Real.sin (rad lat2)) / coneN lat1 lat2)| ≤ r * (170 * (w / h ^ 2)) := by
  have hw := w_pos
  have hp : 0 < h := lt_of_lt_of_le (by positivity) hh0
  obtain ⟨c0, c1⟩ := cone_const_ge lat1 lat2
  obtain ⟨e1, e2, e3⟩ := root_err hm hh0 hh1 (by nlinarith) c1 ((const_err hm h1 h2).trans (by linarith))
  obtain ⟨n0, f1, f2⟩ := cone_err hr hh0 hh1 hN (cone_half_err hm h1 h2) (Real.sqrt_nonneg _) e3 e2
  refine ⟨_, ?_, f1, f2⟩
  rw [Cone.init, e1]
  change (do
    let p0 ← div (fl (r * m.sqrt (Cone.const m lat1 lat2))) (Cone.half m lat1 lat2)
    return Cone.mk r (Cone.half m lat1 lat2) (Cone.const m lat1 lat2) p0) = _
  rw [div_ok n0]
  rfl

/-- C186: `ConicEqualArea` on floats: if the constant of the cone is at least `h` and the number under the root at least `h²`, then the constructor and
`geo2rect` return, and the point is off by at most `r · 2⁻⁴² / h²`. Missing: positions for which the number under the root is close to zero, see
`C186_pole_violated`. -/
theorem C186_close_partial (m : Libm) (hm : m.Rounds) (lat1 lat2 r lon lat : ℚ) (h : ℝ) (h1 : |lat1| ≤ 90) (h2 : |lat2| ≤ 90) (hl : |lat| ≤ 90) (l : |lon| ≤ 360)
    (hr : 1 ≤ r) (hh0 : 2 ^ (-16 : ℤ) ≤ h) (hh1 : h ≤ 1) (hN : h ≤ |(Real.sin (rad lat1) + Real.sin (rad lat2)) / 2|)
    (hD : h ^ 2 ≤ 1 + Real.sin (rad lat1) * Real.sin (rad lat2) - (Real.sin (rad lat1) + Real.sin (rad lat2)) * Real.sin (rad lat)) :
    ∃ q Q x y X Y, Cone.init m lat1 lat2 r = .ok q ∧ Proj.Conic.new (some ((lat1 : ℝ), (lat2 : ℝ))) (some (r : ℝ)) = .ok Q ∧
      q.geo2rect m lon lat = .ok (x, y) ∧ Q.geo2rect lon lat = .ok (X, Y) ∧
      |(x : ℝ) - X| ≤ r * (2 ^ (-42 : ℤ) / h ^ 2) ∧ |(y : ℝ) - Y| ≤ r * (2 ^ (-42 : ℤ) / h ^ 2) := by
  have hw := w_pos
  obtain ⟨hp, V0, -⟩ := unit_sizes hh0 hh1
  have hr' : (1 : ℝ) ≤ r := by exact_mod_cast hr
  have u : 2 ^ (-42 : ℤ) / h ^ 2 = 1024 * (w / h ^ 2) := by
    rw [← mul_div_assoc]
    congr 1
    rw [w_eq]
    norm_num
  rw [u]
  have hN' : h ≤ |coneN lat1 lat2| := hN
  have hD' : h ^ 2 ≤ coneD lat1 lat2 lat := by
    rw [coneD, coneN]
    linarith
  obtain ⟨p0, ei, f1, f2⟩ := cone_init hm h1 h2 hr hh0 hh1 hN'
  obtain ⟨d1, d2⟩ := under_err hm h1 h2 hl r p0
  obtain ⟨e1, e2, e3⟩ := root_err hm hh0 hh1 hD' (abs_le.mp d2).2 d1
  obtain ⟨n0, g1, g2⟩ := cone_err hr hh0 hh1 hN' (cone_half_err hm h1 h2) (Real.sqrt_nonneg _) e3 e2
  have t := cone_turn_err (coneN_abs lat1 lat2) (cone_half_err hm h1 h2) l
  obtain ⟨s1, s2⟩ := sin_err hm t
  obtain ⟨c1, c2⟩ := cos_err hm t
  obtain ⟨x1, -⟩ := cone_coord hr hh0 hh1 g1 g2 (Real.abs_sin_le_one _) (s1.trans (by linarith)) s2
  obtain ⟨y1, y2⟩ := cone_coord hr hh0 hh1 g1 g2 (Real.abs_cos_le_one _) (c1.trans (by linarith)) c2
  have y3 := cone_diff hr hh0 hh1 f1 f2 y2 y1
  have NN : coneN lat1 lat2 ≠ 0 := abs_pos.mp (by linarith)
  have hD0 : 0 ≤ 1 + Real.sin (rad lat1) * Real.sin (rad lat2) - 2 * coneN lat1 lat2 * Real.sin (rad lat) := (sq_nonneg h).trans hD'
  generalize hp' : fl (fl (r * m.sqrt (Cone.under m ⟨r, Cone.half m lat1 lat2, Cone.const m lat1 lat2, p0⟩ lat)) / Cone.half m lat1 lat2) = p at *
  refine ⟨_, _, fl (p * m.sin (fl (Cone.half m lat1 lat2 * radians lon))), fl (p0 - fl (p * m.cos (fl (Cone.half m lat1 lat2 * radians lon)))), _, _, ei,
    cone_real lat1 lat2 r NN, ?_, Proj.Conic.geo2rect_eq _ NN lon lat hD0, ?_, ?_⟩
  · rw [Cone.geo2rect, e1]
    change (do
      let p ← div (fl (r * m.sqrt (Cone.under m ⟨r, Cone.half m lat1 lat2, Cone.const m lat1 lat2, p0⟩ lat))) (Cone.half m lat1 lat2)
      let t := fl (Cone.half m lat1 lat2 * radians lon)
      return (fl (p * m.sin t), fl (p0 - fl (p * m.cos t)))) = _
    rw [div_ok n0, hp']
    rfl
  · have e : (r : ℝ) * √(1 + Real.sin (rad lat1) * Real.sin (rad lat2) - 2 * coneN lat1 lat2 * Real.sin (rad lat)) / coneN lat1 lat2 * Real.sin (coneN lat1 lat2 * rad lon) =
        r * (√(coneD lat1 lat2 lat) / coneN lat1 lat2 * Real.sin (coneN lat1 lat2 * rad lon)) := by
      rw [coneD]
      ring
    change |_ - (r : ℝ) * √(1 + Real.sin (rad lat1) * Real.sin (rad lat2) - 2 * coneN lat1 lat2 * Real.sin (rad lat)) / coneN lat1 lat2 * Real.sin (coneN lat1 lat2 * rad lon)| ≤ _
    rw [e]
    exact x1.trans (mul_le_mul_of_nonneg_left (by linarith) (by linarith))
  · have e : (r : ℝ) * √(1 + Real.sin (rad lat1) * Real.sin (rad lat2)) / coneN lat1 lat2 -
        (r : ℝ) * √(1 + Real.sin (rad lat1) * Real.sin (rad lat2) - 2 * coneN lat1 lat2 * Real.sin (rad lat)) / coneN lat1 lat2 * Real.cos (coneN lat1 lat2 * rad lon) =
        r * (√(1 + Real.sin (rad lat1) * Real.sin (rad lat2)) / coneN lat1 lat2) -
        r * (√(coneD lat1 lat2 lat) / coneN lat1 lat2 * Real.cos (coneN lat1 lat2 * rad lon)) := by
      rw [coneD]
      ring
    change |_ - ((r : ℝ) * √(1 + Real.sin (rad lat1) * Real.sin (rad lat2)) / coneN lat1 lat2 -
        (r : ℝ) * √(1 + Real.sin (rad lat1) * Real.sin (rad lat2) - 2 * coneN lat1 lat2 * Real.sin (rad lat)) / coneN lat1 lat2 * Real.cos (coneN lat1 lat2 * rad lon))| ≤ _
    rw [e]
    exact y3

/-- The sine of a latitude of at most 75 degrees. -/
theorem sin_seventy_five {x : ℝ} (h : |x| ≤ 75) : |Real.sin (rad x)| ≤ 1 - 2 ^ (-7 : ℤ) := by
  have key : ∀ y : ℝ, y ≤ 75 → -75 ≤ y → Real.sin (rad y) ≤ 1 - 2 ^ (-7 : ℤ) := by
    intro y h1 h2
    have hp := Real.pi_pos
    have hp3 := Real.pi_gt_three
    have hp4 := Real.pi_lt_d2
    have a0 : Real.pi / 12 ≤ Real.pi / 2 - rad y := by rw [rad]; nlinarith
    have a1 : Real.pi / 2 - rad y ≤ Real.pi := by rw [rad]; nlinarith
    rw [← Real.cos_pi_div_two_sub]
    have c : Real.cos (Real.pi / 2 - rad y) ≤ Real.cos (Real.pi / 12) := Real.cos_le_cos_of_nonneg_of_le_pi (by positivity) a1 a0
    have d := Real.cos_le_one_sub_mul_cos_sq (x := Real.pi / 12) (by rw [abs_of_pos (by positivity)]; linarith)
    have e : 2 / Real.pi ^ 2 * (Real.pi / 12) ^ 2 = 1 / 72 := by field_simp; norm_num
    rw [e] at d
    have f : (2 : ℝ) ^ (-7 : ℤ) ≤ 1 / 72 := by norm_num
    linarith
  rw [abs_le] at h ⊢
  constructor
  · have := key (-x) (by linarith [h.1]) (by linarith [h.2])
    rw [show rad (-x) = -rad x by simp only [rad]; ring, Real.sin_neg] at this
    linarith
  · exact key x h.2 h.1

/-- C186: with parallels of at most 75 degrees, no matter in which hemisphere, every position on Earth has a point. -/
theorem C186_anywhere (m : Libm) (hm : m.Rounds) (lat1 lat2 r lon lat : ℚ) (h1 : |lat1| ≤ 75) (h2 : |lat2| ≤ 75) (hl : |lat| ≤ 90) (l : |lon| ≤ 360)
    (hr : 1 ≤ r) (hN : 2 ^ (-7 : ℤ) ≤ |(Real.sin (rad lat1) + Real.sin (rad lat2)) / 2|) :
    ∃ q Q x y X Y, Cone.init m lat1 lat2 r = .ok q ∧ Proj.Conic.new (some ((lat1 : ℝ), (lat2 : ℝ))) (some (r : ℝ)) = .ok Q ∧
      q.geo2rect m lon lat = .ok (x, y) ∧ Q.geo2rect lon lat = .ok (X, Y) ∧ |(x : ℝ) - X| ≤ r * 2 ^ (-28 : ℤ) ∧ |(y : ℝ) - Y| ≤ r * 2 ^ (-28 : ℤ) := by
  have s1 := sin_seventy_five (by have := abs_real h1; push_cast at this; exact this)
  have s2 := sin_seventy_five (by have := abs_real h2; push_cast at this; exact this)
  have D : ((2 : ℝ) ^ (-7 : ℤ)) ^ 2 ≤ 1 + Real.sin (rad lat1) * Real.sin (rad lat2) - (Real.sin (rad lat1) + Real.sin (rad lat2)) * Real.sin (rad lat) := by
    have c := Real.sin_le_one (rad lat)
    have d := Real.neg_one_le_sin (rad lat)
    have t : (0 : ℝ) ≤ 2 ^ (-7 : ℤ) := by positivity
    rw [abs_le] at s1 s2
    generalize Real.sin (rad lat1) = x at *
    generalize Real.sin (rad lat2) = y at *
    generalize Real.sin (rad lat) = z at *
    generalize (2 : ℝ) ^ (-7 : ℤ) = e at *
    have a : e ^ 2 ≤ (1 - x) * (1 - y) := by
      rw [sq]
      exact mul_le_mul (by linarith) (by linarith) t (by linarith)
    have b : e ^ 2 ≤ (1 + x) * (1 + y) := by
      rw [sq]
      exact mul_le_mul (by linarith) (by linarith) t (by linarith)
    have p := mul_le_mul_of_nonneg_left a (by linarith : 0 ≤ (1 + z) / 2)
    have q := mul_le_mul_of_nonneg_left b (by linarith : 0 ≤ (1 - z) / 2)
    have k : 1 + x * y - (x + y) * z = (1 + z) / 2 * ((1 - x) * (1 - y)) + (1 - z) / 2 * ((1 + x) * (1 + y)) := by ring
    rw [k]
    linarith
  have e : (2 : ℝ) ^ (-42 : ℤ) / (2 ^ (-7 : ℤ)) ^ 2 = 2 ^ (-28 : ℤ) := by norm_num
  have := C186_close_partial m hm lat1 lat2 r lon lat (2 ^ (-7 : ℤ)) (h1.trans (by norm_num)) (h2.trans (by norm_num)) hl l hr (by norm_num) (by norm_num) hN D
  rw [e] at this
  exact this

/-- The numbers for the parallels 6 and 90 degrees. -/
theorem cone_six {m : Libm} (hm : m.Rounds) : 0 < Cone.half m 6 90 ∧ 0 < Cone.const m 6 90 ∧
    ∀ r p0, (Cone.mk r (Cone.half m 6 90) (Cone.const m 6 90) p0).under m 90 = -(2 ^ (-52 : ℤ)) := by
  have e1 : radians 6 = 3772926801081835 / 36028797018963968 := by decide +kernel
  have e2 : radians 90 = piD / 2 := by decide +kernel
  have c1 : m.cos (3772926801081835 / 36028797018963968) = 4478928437392355 / 4503599627370496 :=
    cos_eq hm _ _ (1 / 10 ^ 22) 8 (by decide +kernel) (by decide +kernel) (by decide +kernel) (by decide +kernel)
  have s1 : m.sin (3772926801081835 / 36028797018963968) = 1883017392887259 / 18014398509481984 :=
    sin_eq hm _ _ (1 / 10 ^ 22) 8 (by decide +kernel) (by decide +kernel) (by decide +kernel) (by decide +kernel)
  simp only [Cone.under, Cone.const, Cone.half, e1, e2, c1, s1, sin_right hm]
  refine ⟨by decide +kernel, by decide +kernel, fun _ _ => by decide +kernel⟩

/-- C186: with parallels at 6 degrees and at the pole, the pole has a point for real numbers, but on floats `geo2rect` and `scale` raise `ValueError`
there: the number under the root, which should be zero, is negative. -/
theorem C186_pole_violated (m : Libm) (hm : m.Rounds) (r lon : ℚ) :
    (∃ q, Cone.init m 6 90 r = .ok q ∧ q.geo2rect m lon 90 = .error .valueError ∧ q.scale m 90 = .error .valueError) ∧
      ∃ Q X Y, Proj.Conic.new (some (6, 90)) (some (r : ℝ)) = .ok Q ∧ Q.geo2rect lon 90 = .ok (X, Y) := by
  obtain ⟨n0, c0, u⟩ := cone_six hm
  have hneg : -(2 : ℚ) ^ (-52 : ℤ) < 0 := by norm_num
  constructor
  · refine ⟨⟨r, Cone.half m 6 90, Cone.const m 6 90, fl (fl (r * m.sqrt (Cone.const m 6 90)) / Cone.half m 6 90)⟩, ?_, ?_, ?_⟩
    · rw [Cone.init, sqrt_ok c0.le]
      change (do
        let p0 ← div (fl (r * m.sqrt (Cone.const m 6 90))) (Cone.half m 6 90)
        return Cone.mk r (Cone.half m 6 90) (Cone.const m 6 90) p0) = _
      rw [div_ok n0.ne']
      rfl
    · rw [Cone.geo2rect, u, Libm.pySqrt, if_pos hneg]
      rfl
    · rw [Cone.scale, u, Libm.pySqrt, if_pos hneg]
      rfl
  · have s90 : Real.sin (rad 90) = 1 := by
      rw [show rad 90 = Real.pi / 2 by rw [rad]; ring, Real.sin_pi_div_two]
    have NN : coneN 6 90 ≠ 0 := by
      rw [coneN, s90]
      have : 0 ≤ Real.sin (rad 6) := by
        have := Real.pi_pos
        exact Real.sin_nonneg_of_nonneg_of_le_pi (by rw [rad]; positivity) (by rw [rad]; linarith)
      positivity
    refine ⟨_, _, _, cone_real 6 90 r NN, Proj.Conic.geo2rect_eq _ NN lon 90 ?_⟩
    change 0 ≤ 1 + Real.sin (rad 6) * Real.sin (rad 90) - 2 * coneN 6 90 * Real.sin (rad 90)
    rw [coneN, s90]
    linarith

/-- The quotient of a cosine and a root. -/
theorem cone_scale_err {c s : ℚ} {C S h : ℝ} (h0 : 2 ^ (-16 : ℤ) ≤ h) (h1 : h ≤ 1) (hS : h ≤ S) (hC : |C| ≤ 1) (hc1 : |(c : ℝ)| ≤ 1) (hc : |(c : ℝ) - C| ≤ 10 * w)
    (hs : |(s : ℝ) - S| ≤ 128 * (w / h)) : s ≠ 0 ∧ |(fl (c / s) : ℝ) - C / S| ≤ 512 * (w / h ^ 3) := by
  have hw := w_pos
  obtain ⟨hp, V0, V1, a1, a2, a3, a4⟩ := unit_sizes h0 h1
  have hV : 1000000 * (w / h) ≤ h := by
    rw [a4]
    have := mul_le_mul_of_nonneg_right V1 hp.le
    linarith
  obtain ⟨b1, b2⟩ := abs_le.mp hs
  have s1 : 99 / 100 * h ≤ s := by linarith
  have s0 : (0 : ℝ) < s := by linarith
  have S0 : 0 < S := by linarith
  have Z : w / h ^ 2 ≤ w / h ^ 3 := div_le_div_of_nonneg_left hw.le (by positivity) (by nlinarith [sq_nonneg h])
  refine ⟨by exact_mod_cast s0.ne', ?_⟩
  have q : |(c : ℝ) / s - C / S| ≤ 150 * (w / h ^ 3) := by
    have e : (c : ℝ) / s - C / S = (c - C) / s + C * ((S - s) / (s * S)) := by
      field_simp
      ring
    rw [e]
    refine (abs_add_le _ _).trans ?_
    have p1 : |((c : ℝ) - C) / s| ≤ 11 * (w / h) := by
      rw [abs_div, abs_of_pos s0, div_le_iff₀ s0]
      refine hc.trans ?_
      have := mul_le_mul_of_nonneg_left s1 (by positivity : 0 ≤ 11 * (w / h))
      have e2 : 11 * (w / h) * (99 / 100 * h) = 11 * (99 / 100) * w := by field_simp
      rw [e2] at this
      linarith
    have p2 : |C * ((S - s) / (s * S))| ≤ 130 * (w / h ^ 3) := by
      have k : |(S - s) / (s * S)| ≤ 130 * (w / h ^ 3) := by
        rw [abs_div, abs_of_pos (mul_pos s0 S0), div_le_iff₀ (mul_pos s0 S0), abs_sub_comm]
        refine hs.trans ?_
        have m1 := mul_le_mul s1 hS hp.le s0.le
        have m2 := mul_le_mul_of_nonneg_left m1 (by positivity : 0 ≤ 130 * (w / h ^ 3))
        have e2 : 130 * (w / h ^ 3) * (99 / 100 * h * h) = 128.7 * (w / h) := by field_simp; norm_num
        rw [e2] at m2
        have : 0 ≤ w / h := by positivity
        linarith
      rw [abs_mul]
      have := mul_le_mul hC k (abs_nonneg _) zero_le_one
      linarith
    linarith
  have e := fl_err_real (c / s)
  push_cast at e
  have b : |(c : ℝ) / s| ≤ 2 / h := by
    rw [abs_div, abs_of_pos s0, div_le_div_iff₀ s0 hp]
    nlinarith
  have g := mul_le_mul_of_nonneg_right b (by linarith : 0 ≤ w / 2)
  have g2 : 2 / h * (w / 2) = w / h := by field_simp
  have t := abs_sub_le (fl (c / s) : ℝ) (c / s) (C / S)
  linarith

/-- C186: `ConicEqualArea.scale` on floats returns and is off by at most `2⁻⁴³ / h³`. Missing: as above. -/
theorem C186_scale_partial (m : Libm) (hm : m.Rounds) (lat1 lat2 r lon lat : ℚ) (h : ℝ) (h1 : |lat1| ≤ 90) (h2 : |lat2| ≤ 90) (hl : |lat| ≤ 90)
    (hr : 1 ≤ r) (hh0 : 2 ^ (-16 : ℤ) ≤ h) (hh1 : h ≤ 1) (hN : h ≤ |(Real.sin (rad lat1) + Real.sin (rad lat2)) / 2|)
    (hD : h ^ 2 ≤ 1 + Real.sin (rad lat1) * Real.sin (rad lat2) - (Real.sin (rad lat1) + Real.sin (rad lat2)) * Real.sin (rad lat)) :
    ∃ q Q k K, Cone.init m lat1 lat2 r = .ok q ∧ Proj.Conic.new (some ((lat1 : ℝ), (lat2 : ℝ))) (some (r : ℝ)) = .ok Q ∧
      q.scale m lat = .ok k ∧ Q.scale lon lat = .ok K ∧ |(k : ℝ) - K| ≤ 2 ^ (-43 : ℤ) / h ^ 3 := by
  have hw := w_pos
  have hp : 0 < h := lt_of_lt_of_le (by positivity) hh0
  have u : 2 ^ (-43 : ℤ) / h ^ 3 = 512 * (w / h ^ 3) := by
    rw [← mul_div_assoc]
    congr 1
    rw [w_eq]
    norm_num
  rw [u]
  have hN' : h ≤ |coneN lat1 lat2| := hN
  have hD' : h ^ 2 ≤ coneD lat1 lat2 lat := by
    rw [coneD, coneN]
    linarith
  obtain ⟨p0, ei, -, -⟩ := cone_init hm h1 h2 hr hh0 hh1 hN'
  obtain ⟨d1, d2⟩ := under_err hm h1 h2 hl r p0
  obtain ⟨e1, e2, e3⟩ := root_err hm hh0 hh1 hD' (abs_le.mp d2).2 d1
  have hl' := abs_real hl
  push_cast at hl'
  obtain ⟨c1, c2⟩ := cos_err hm (radians_err (x := lat) (by linarith))
  obtain ⟨s0, se⟩ := cone_scale_err hh0 hh1 (Real.le_sqrt_of_sq_le hD') (Real.abs_cos_le_one (rad lat)) c2 (c1.trans (by linarith)) e2
  have NN : coneN lat1 lat2 ≠ 0 := abs_pos.mp (by linarith)
  have hD0 : 0 < 1 + Real.sin (rad lat1) * Real.sin (rad lat2) - 2 * coneN lat1 lat2 * Real.sin (rad lat) := lt_of_lt_of_le (by positivity) hD'
  refine ⟨_, _, _, _, ei, cone_real lat1 lat2 r NN, ?_, Proj.Conic.scale_ok _ lon lat hD0, se⟩
  rw [Cone.scale, e1]
  exact div_ok s0

/-- A rounded root, computed from bounds. -/
theorem sqrt_eq {m : Libm} (hm : m.Rounds) {x r lo hi : ℚ} (hx : 0 ≤ x) (h0 : 0 ≤ lo) (h1 : 0 < hi) (a1 : lo ^ 2 < x) (a2 : x < hi ^ 2) (e1 : fl lo = r) (e2 : fl hi = r) :
    m.sqrt x = r := by
  have h := hm.sqrt x hx
  refine near_eq ⟨h.1, h.2.2⟩ ?_ ?_ e1 e2
  · exact Real.lt_sqrt_of_sq_lt (by exact_mod_cast a1)
  · rw [Real.sqrt_lt' (by exact_mod_cast h1)]
    exact_mod_cast a2

/-- The projection with both parallels at 6 degrees and the radius 1, at the pole. -/
theorem cone_pole {m : Libm} (hm : m.Rounds) : ∃ q, Cone.init m 6 6 1 = .ok q ∧ q.geo2rect m 0 90 = .ok (0, 37018260512881 / 35184372088832) ∧
    ∀ asin, q.rect2geo m asin 0 (37018260512881 / 35184372088832) = .error .valueError := by
  have e1 : radians 6 = 3772926801081835 / 36028797018963968 := by decide +kernel
  have e2 : radians 90 = piD / 2 := by decide +kernel
  have c1 : m.cos (3772926801081835 / 36028797018963968) = 4478928437392355 / 4503599627370496 :=
    cos_eq hm _ _ (1 / 10 ^ 22) 8 (by decide +kernel) (by decide +kernel) (by decide +kernel) (by decide +kernel)
  have s1 : m.sin (3772926801081835 / 36028797018963968) = 1883017392887259 / 18014398509481984 :=
    sin_eq hm _ _ (1 / 10 ^ 22) 8 (by decide +kernel) (by decide +kernel) (by decide +kernel) (by decide +kernel)
  have n : Cone.half m 6 6 = 1883017392887259 / 18014398509481984 := by
    simp only [Cone.half, e1, s1]
    decide +kernel
  have c : Cone.const m 6 6 = 142275214248959 / 140737488355328 := by
    simp only [Cone.const, n, e1, s1, c1]
    decide +kernel
  have r1 : m.sqrt (142275214248959 / 140737488355328) = 4528136400333079 / 4503599627370496 :=
    sqrt_eq hm (by norm_num) (lo := 4528136400333079 / 4503599627370496 - 1 / 2 ^ 54) (hi := 4528136400333079 / 4503599627370496 + 1 / 2 ^ 54)
      (by norm_num) (by norm_num) (by norm_num) (by norm_num) (by decide +kernel) (by decide +kernel)
  have r2 : m.sqrt (7222596319046117 / 9007199254740992) = 4032845279148681 / 4503599627370496 :=
    sqrt_eq hm (by norm_num) (lo := 4032845279148681 / 4503599627370496 - 3 / 2 ^ 56) (hi := 4032845279148681 / 4503599627370496 + 3 / 2 ^ 56)
      (by norm_num) (by norm_num) (by norm_num) (by norm_num) (by decide +kernel) (by decide +kernel)
  refine ⟨⟨1, 1883017392887259 / 18014398509481984, 142275214248959 / 140737488355328, 5414956198029077 / 562949953421312⟩, ?_, ?_, ?_⟩
  · rw [Cone.init, c, n, sqrt_ok (by norm_num), r1]
    change (do
      let p0 ← div (fl (1 * (4528136400333079 / 4503599627370496))) (1883017392887259 / 18014398509481984)
      return Cone.mk 1 (1883017392887259 / 18014398509481984) (142275214248959 / 140737488355328) p0) = _
    rw [div_ok (by norm_num), show fl (fl (1 * (4528136400333079 / 4503599627370496)) / (1883017392887259 / 18014398509481984)) = 5414956198029077 / 562949953421312 by decide +kernel]
    rfl
  · have u : (Cone.mk 1 (1883017392887259 / 18014398509481984) (142275214248959 / 140737488355328) (5414956198029077 / 562949953421312)).under m 90 =
        7222596319046117 / 9007199254740992 := by
      simp only [Cone.under, e2, sin_right hm]
      decide +kernel
    rw [Cone.geo2rect, u, sqrt_ok (by norm_num), r2]
    change (do
      let p ← div (fl (1 * (4032845279148681 / 4503599627370496))) (1883017392887259 / 18014398509481984)
      let t := fl (1883017392887259 / 18014398509481984 * radians 0)
      return (fl (p * m.sin t), fl (5414956198029077 / 562949953421312 - fl (p * m.cos t)))) = _
    rw [div_ok (by norm_num), show fl (fl (1 * (4032845279148681 / 4503599627370496)) / (1883017392887259 / 18014398509481984)) = 4822664029822981 / 562949953421312 by decide +kernel]
    change Except.ok (fl (4822664029822981 / 562949953421312 * m.sin (fl (1883017392887259 / 18014398509481984 * radians 0))),
      fl (5414956198029077 / 562949953421312 - fl (4822664029822981 / 562949953421312 * m.cos (fl (1883017392887259 / 18014398509481984 * radians 0))))) = _
    rw [radians_zero, mul_zero, fl_zero, sin_zero hm, cos_zero hm, mul_zero, fl_zero, mul_one,
      show fl (5414956198029077 / 562949953421312 - fl (4822664029822981 / 562949953421312)) = 37018260512881 / 35184372088832 by decide +kernel]
  · intro asin
    have z : fl (fl (0 * 0) + fl (fl (5414956198029077 / 562949953421312 - 37018260512881 / 35184372088832) * fl (5414956198029077 / 562949953421312 - 37018260512881 / 35184372088832))) =
        fl (4822664029822981 / 562949953421312 * (4822664029822981 / 562949953421312)) := by decide +kernel
    have z0 : 0 ≤ fl (4822664029822981 / 562949953421312 * (4822664029822981 / 562949953421312)) := by decide +kernel
    have r3 : m.sqrt (fl (4822664029822981 / 562949953421312 * (4822664029822981 / 562949953421312))) = 4822664029822981 / 562949953421312 :=
      sqrt_eq hm z0 (lo := 4822664029822981 / 562949953421312 - 1 / 2 ^ 51) (hi := 4822664029822981 / 562949953421312 + 1 / 2 ^ 51)
        (by norm_num) (by norm_num) (by decide +kernel) (by decide +kernel) (by decide +kernel) (by decide +kernel)
    simp only [Cone.rect2geo, z]
    rw [sqrt_ok z0, r3, if_neg (by norm_num)]
    change (do
      let lon ← div (m.atan2 0 (fl (5414956198029077 / 562949953421312 - 37018260512881 / 35184372088832))) (1883017392887259 / 18014398509481984)
      let pnr ← div (fl (4822664029822981 / 562949953421312 * (1883017392887259 / 18014398509481984))) 1
      let s ← div (fl (142275214248959 / 140737488355328 - fl (pnr * pnr))) (fl (2 * (1883017392887259 / 18014398509481984)))
      let lat ← pyAsin asin s
      return (degrees lon, degrees lat)) = _
    rw [div_ok (by norm_num), div_ok (by norm_num),
      show fl (fl (4822664029822981 / 562949953421312 * (1883017392887259 / 18014398509481984)) / 1) = 4032845279148681 / 4503599627370496 by decide +kernel]
    change (do
      let s ← div (fl (142275214248959 / 140737488355328 - fl (4032845279148681 / 4503599627370496 * (4032845279148681 / 4503599627370496))))
        (fl (2 * (1883017392887259 / 18014398509481984)))
      let lat ← pyAsin asin s
      return (_, degrees lat)) = _
    rw [div_ok (by decide +kernel), show fl (fl (142275214248959 / 140737488355328 - fl (4032845279148681 / 4503599627370496 * (4032845279148681 / 4503599627370496))) /
      (fl (2 * (1883017392887259 / 18014398509481984)))) = 2251799813685249 / 2251799813685248 by decide +kernel]
    change (do
      let lat ← pyAsin asin (2251799813685249 / 2251799813685248)
      return (_, degrees lat)) = _
    rw [pyAsin, if_pos (Or.inr (by norm_num))]
    rfl

/-- C186: with both parallels at 6 degrees, and the radius 1, the north pole has a point, but `rect2geo` raises `ValueError` for that point. -/
theorem C186_back_violated (m : Libm) (hm : m.Rounds) (asin : ℚ → ℚ) :
    ∃ q x y, Cone.init m 6 6 1 = .ok q ∧ q.geo2rect m 0 90 = .ok (x, y) ∧ q.rect2geo m asin x y = .error .valueError := by
  obtain ⟨q, h1, h2, h3⟩ := cone_pole hm
  exact ⟨q, _, _, h1, h2, h3 asin⟩

/-- The hypotheses can be met: the parallels 30 and 60 degrees. -/
example : ∃ m : Libm, m.Rounds ∧ |(30 : ℚ)| ≤ 75 ∧ |(60 : ℚ)| ≤ 75 ∧ 2 ^ (-7 : ℤ) ≤ |(Real.sin (rad ((30 : ℚ) : ℝ)) + Real.sin (rad ((60 : ℚ) : ℝ))) / 2| := by
  obtain ⟨m, hm⟩ := exists_rounds
  refine ⟨m, hm, by norm_num, by norm_num, ?_⟩
  have hp := Real.pi_pos
  push_cast
  rw [show rad 30 = Real.pi / 6 by rw [rad]; ring, Real.sin_pi_div_six]
  have : 0 ≤ Real.sin (rad 60) := Real.sin_nonneg_of_nonneg_of_le_pi (by rw [rad]; positivity) (by rw [rad]; linarith)
  rw [abs_of_nonneg (by positivity)]
  have : (2 : ℝ) ^ (-7 : ℤ) ≤ 1 / 4 := by norm_num
  linarith

end Flt
end Coral
