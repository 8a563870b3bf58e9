import Verif.Model.FloatsPage
import Verif.Props.Floats

/-!
# The page of a saved drawing on floats (C205)
-/
namespace Coral
namespace Flt

/-- On floats a drawing can stick out of its page: ten units on a page of size 1 end at 1.00000000000000003. -/
theorem C205_fit_violated : ∃ p, page ⟨0, 0, 10, 10⟩ 1 0 = .ok p ∧ 1 < (p.put 10 10).1 := by
  refine ⟨⟨fl (1 / 2), fl (fl (1 - 0) / max (fl (10 - 0)) (fl (10 - 0))), (center ⟨0, 0, 10, 10⟩).1, (center ⟨0, 0, 10, 10⟩).2⟩, ?_, ?_⟩
  · have h : max (fl (10 - 0)) (fl (10 - 0)) ≠ 0 := by decide +kernel
    simp only [page, if_neg h]
  · decide +kernel

/-- `save` raises exactly if the drawing has neither width nor height. -/
theorem C205_zero (bb : BBox ℚ) (hx0 : IsDouble bb.x0) (hx1 : IsDouble bb.x1) (hy0 : IsDouble bb.y0) (hy1 : IsDouble bb.y1)
    (hx : bb.x0 ≤ bb.x1) (hy : bb.y0 ≤ bb.y1) (size margin : ℚ) :
    page bb size margin = .error .zeroDivisionError ↔ bb.x0 = bb.x1 ∧ bb.y0 = bb.y1 := by
  have z : fl 0 = 0 := by decide +kernel
  have w0 : 0 ≤ fl (bb.x1 - bb.x0) := by rw [← z]; exact fl_mono (by linarith)
  have h0 : 0 ≤ fl (bb.y1 - bb.y0) := by rw [← z]; exact fl_mono (by linarith)
  rw [← C154_sides_do_not_vanish _ _ hx0 hx1, ← C154_sides_do_not_vanish _ _ hy0 hy1]
  unfold page
  constructor
  · intro h
    by_cases hd : max (fl (bb.x1 - bb.x0)) (fl (bb.y1 - bb.y0)) = 0
    · have a := le_max_left (fl (bb.x1 - bb.x0)) (fl (bb.y1 - bb.y0))
      have b := le_max_right (fl (bb.x1 - bb.x0)) (fl (bb.y1 - bb.y0))
      rw [hd] at a b
      exact ⟨le_antisymm a w0, le_antisymm b h0⟩
    · simp only [if_neg hd] at h
      cases h
  · rintro ⟨a, b⟩
    simp only [a, b, max_self, if_true]

/-- Rounding errors of numbers that are not too small. -/
theorem fl_rel_big {x : ℚ} (h : 2 ^ (-1010 : ℤ) ≤ |x|) : |fl x - x| ≤ |x| * 2 ^ (-52 : ℤ) := by
  have e := fl_error x
  have p1 : (2 : ℚ) ^ (-52 : ℤ) = 2 * 2 ^ (-53 : ℤ) := by rw [← zpow_one_add₀ (by norm_num)]; norm_num
  have p2 : (2 : ℚ) ^ (-1075 : ℤ) ≤ 2 ^ (-1010 : ℤ) * 2 ^ (-53 : ℤ) := by
    rw [← zpow_add₀ (by norm_num)]; exact zpow_le_zpow_right₀ (by norm_num) (by norm_num)
  have p3 : (2 : ℚ) ^ (-1010 : ℤ) * 2 ^ (-53 : ℤ) ≤ |x| * 2 ^ (-53 : ℤ) := mul_le_mul_of_nonneg_right h (by positivity)
  rw [p1]
  linarith

theorem half_double {x y v : ℚ} (v1 : v ≤ 1 / 100) (hx : 0 ≤ x) (h : |y - x| ≤ x * v) : x / 2 ≤ y ∧ y ≤ 2 * x := by
  have := mul_le_mul_of_nonneg_left v1 hx
  obtain ⟨a, b⟩ := abs_le.mp h
  constructor <;> linarith

/-- The error of the scale: three roundings. -/
theorem page_scale_err {S W s' w' c v : ℚ} (v0 : 0 ≤ v) (v1 : v ≤ 1 / 100) (hS : 0 ≤ S) (hW : 0 < W) (h1 : |s' - S| ≤ S * v) (h2 : |w' - W| ≤ W * v)
    (h3 : |c - s' / w'| ≤ |s' / w'| * v) : |c - S / W| ≤ S / W * (5 * v) := by
  obtain ⟨a1, a2⟩ := abs_le.mp h1
  obtain ⟨b1, b2⟩ := abs_le.mp h2
  have hw' : 0 < w' := by nlinarith
  have hs' : 0 ≤ s' := by nlinarith
  have q0 : 0 ≤ s' / w' := by positivity
  rw [abs_of_nonneg q0] at h3
  have Q0 : 0 ≤ S / W := by positivity
  have eS : S = S / W * W := by field_simp
  have es : s' = s' / w' * w' := by field_simp
  obtain ⟨c1, c2⟩ := abs_le.mp h3
  generalize S / W = Q at *
  generalize s' / w' = q at *
  -- q is Q up to three parts
  have up : q ≤ Q * (1 + 3 * v) := by
    have h : q * (W * (1 - v)) ≤ Q * W * (1 + v) := by
      have := mul_le_mul_of_nonneg_left (show W * (1 - v) ≤ w' by linarith) q0
      rw [← es] at this
      rw [← eS]; linarith
    have h' : q * (1 - v) ≤ Q * (1 + v) := by
      have : q * (1 - v) * W ≤ Q * (1 + v) * W := by linarith
      exact le_of_mul_le_mul_right this hW
    have h'' : Q * (1 + v) ≤ Q * (1 + 3 * v) * (1 - v) := by nlinarith [mul_nonneg Q0 v0]
    exact le_of_mul_le_mul_right (h'.trans h'') (by linarith)
  have lo : Q * (1 - 3 * v) ≤ q := by
    have h : Q * W * (1 - v) ≤ q * (W * (1 + v)) := by
      have := mul_le_mul_of_nonneg_left (show w' ≤ W * (1 + v) by linarith) q0
      rw [← es] at this
      rw [← eS]; linarith
    have h' : Q * (1 - v) ≤ q * (1 + v) := by
      have : Q * (1 - v) * W ≤ q * (1 + v) * W := by linarith
      exact le_of_mul_le_mul_right this hW
    have h'' : Q * (1 - 3 * v) * (1 + v) ≤ Q * (1 - v) := by nlinarith [mul_nonneg Q0 v0, mul_nonneg (mul_nonneg Q0 v0) v0]
    exact le_of_mul_le_mul_right (h''.trans h') (by linarith)
  have qv : q * v ≤ Q * (1 + 3 * v) * v := mul_le_mul_of_nonneg_right up v0
  have x1 : Q * v * v ≤ Q * v * (1 / 100) := mul_le_mul_of_nonneg_left v1 (mul_nonneg Q0 v0)
  have x2 := mul_nonneg Q0 v0
  rw [abs_le]
  constructor <;> nlinarith

/-- One axis of the page. -/
theorem axis_err {size margin W M lo hi half scl cc x v : ℚ} (v0 : 0 ≤ v) (v1 : v ≤ 1 / 100) (hm0 : 0 ≤ margin) (hm : margin ≤ size) (hW : 0 < W)
    (hM : 0 ≤ M) (hlen : hi - lo ≤ W) (hx0 : lo ≤ x) (hx1 : x ≤ hi) (h1 : |half - size / 2| ≤ size / 2 * v)
    (h2 : |scl - (size - margin) / W| ≤ (size - margin) / W * (5 * v)) (h3 : |cc - (lo + hi) / 2| ≤ 2 * M * v) :
    |half + scl * (x - cc) - (size / 2 + (size - margin) / W * (x - (lo + hi) / 2))| ≤ 3 * v * (size + (size - margin) / W * M) := by
  have eS : size - margin = (size - margin) / W * W := by field_simp
  have Q0 : 0 ≤ (size - margin) / W := div_nonneg (by linarith) hW.le
  generalize hQ : (size - margin) / W = Q at *
  have dev : |half + scl * (x - cc) - (size / 2 + Q * (x - (lo + hi) / 2))| ≤ size / 2 * v + Q * (5 * v) * (W / 2) + Q * (1 + 5 * v) * (2 * M * v) := by
    have e : half + scl * (x - cc) - (size / 2 + Q * (x - (lo + hi) / 2)) =
        (half - size / 2) + (scl - Q) * (x - (lo + hi) / 2) + scl * ((lo + hi) / 2 - cc) := by ring
    rw [e]
    have hs : |scl| ≤ Q * (1 + 5 * v) := by
      obtain ⟨s1, s2⟩ := abs_le.mp h2
      rw [abs_le]; constructor <;> nlinarith [mul_nonneg Q0 v0]
    have hx : |x - (lo + hi) / 2| ≤ W / 2 := by rw [abs_le]; constructor <;> linarith
    have t1 := abs_add_le ((half - size / 2) + (scl - Q) * (x - (lo + hi) / 2)) (scl * ((lo + hi) / 2 - cc))
    have t2 := abs_add_le (half - size / 2) ((scl - Q) * (x - (lo + hi) / 2))
    rw [abs_mul] at t1 t2
    have t3 := mul_le_mul h2 hx (abs_nonneg _) (by positivity)
    have t4 := mul_le_mul hs (by rw [abs_sub_comm]; exact h3 : |(lo + hi) / 2 - cc| ≤ 2 * M * v) (abs_nonneg _) (by positivity)
    linarith
  have E : size / 2 * v + Q * (5 * v) * (W / 2) + Q * (1 + 5 * v) * (2 * M * v) ≤ 3 * v * (size + Q * M) := by
    have e1 : Q * (5 * v) * (W / 2) = 5 / 2 * v * (size - margin) := by rw [eS]; ring
    have e2 : Q * (1 + 5 * v) * (2 * M * v) = 2 * (v * (Q * M)) + 10 * (v * (v * (Q * M))) := by ring
    have e3 : v * (v * (Q * M)) ≤ 1 / 100 * (v * (Q * M)) := mul_le_mul_of_nonneg_right v1 (by positivity)
    have e4 : 0 ≤ v * (Q * M) := by positivity
    have e5 : 0 ≤ v * margin := by positivity
    rw [e1, e2]
    nlinarith
  exact dev.trans E

/-- The exact place is between the margins. -/
theorem axis_fit {size margin W lo hi x y E : ℚ} (hm : margin ≤ size) (hW : 0 < W) (hlen : hi - lo ≤ W) (hx0 : lo ≤ x) (hx1 : x ≤ hi)
    (h : |y - (size / 2 + (size - margin) / W * (x - (lo + hi) / 2))| ≤ E) : margin / 2 - E ≤ y ∧ y ≤ size - margin / 2 + E := by
  have eS : size - margin = (size - margin) / W * W := by field_simp
  have Q0 : 0 ≤ (size - margin) / W := div_nonneg (by linarith) hW.le
  generalize hQ : (size - margin) / W = Q at *
  have ex : |Q * (x - (lo + hi) / 2)| ≤ (size - margin) / 2 := by
    rw [abs_mul, abs_of_nonneg Q0, eS, mul_div_assoc]
    exact mul_le_mul_of_nonneg_left (by rw [abs_le]; constructor <;> linarith) Q0
  obtain ⟨d1, d2⟩ := abs_le.mp h
  obtain ⟨f1, f2⟩ := abs_le.mp ex
  constructor <;> linarith

theorem center_err {lo hi M : ℚ} (hM : 2 ^ (-501 : ℤ) ≤ M) (h1 : |lo| ≤ M) (h2 : |hi| ≤ M) :
    |fl (fl (lo + hi) / 2) - (lo + hi) / 2| ≤ 2 * M * 2 ^ (-52 : ℤ) := by
  have e1 := fl_error (lo + hi)
  have e2 := fl_error (fl (lo + hi) / 2)
  have hs : |lo + hi| ≤ 2 * M := (abs_add_le _ _).trans (by linarith)
  have p1 : (2 : ℚ) ^ (-52 : ℤ) = 2 * 2 ^ (-53 : ℤ) := by rw [← zpow_one_add₀ (by norm_num)]; norm_num
  have p2 : (2 : ℚ) ^ (-1075 : ℤ) ≤ 2 ^ (-501 : ℤ) * 2 ^ (-53 : ℤ) * (1 / 100) := by
    have : (2 : ℚ) ^ (-1075 : ℤ) ≤ 2 ^ (-501 : ℤ) * 2 ^ (-53 : ℤ) * 2 ^ (-7 : ℤ) := by
      rw [← zpow_add₀ (by norm_num), ← zpow_add₀ (by norm_num)]; exact zpow_le_zpow_right₀ (by norm_num) (by norm_num)
    exact this.trans (mul_le_mul_of_nonneg_left (by norm_num) (by positivity))
  have p3 : (2 : ℚ) ^ (-501 : ℤ) * 2 ^ (-53 : ℤ) ≤ M * 2 ^ (-53 : ℤ) := mul_le_mul_of_nonneg_right hM (by positivity)
  have hu : (2 : ℚ) ^ (-53 : ℤ) ≤ 1 / 100 := by norm_num
  have hu0 : (0 : ℚ) < 2 ^ (-53 : ℤ) := by positivity
  have hM0 : 0 ≤ M := (abs_nonneg lo).trans h1
  rw [p1]
  clear p1
  generalize (2 : ℚ) ^ (-53 : ℤ) = u at *
  generalize (2 : ℚ) ^ (-1075 : ℤ) = t at *
  generalize (2 : ℚ) ^ (-501 : ℤ) = k at *
  generalize fl (fl (lo + hi) / 2) = c at *
  generalize fl (lo + hi) = s at *
  generalize lo + hi = S at *
  have a1 : |S| * u ≤ 2 * M * u := mul_le_mul_of_nonneg_right hs hu0.le
  have a2 : |s| ≤ |S| + |s - S| := by have := abs_sub_abs_le_abs_sub s S; linarith
  have a3 : |s / 2| = |s| / 2 := by rw [abs_div, abs_of_pos (by norm_num : (0 : ℚ) < 2)]
  have a4 : |c - S / 2| ≤ |c - s / 2| + |s - S| / 2 := by
    have := abs_sub_le c (s / 2) (S / 2)
    rw [← sub_div, abs_div, abs_of_pos (by norm_num : (0 : ℚ) < 2)] at this
    exact this
  have a5 : |s| ≤ 3 * M := by nlinarith
  have a6 : |s| * u ≤ 3 * M * u := mul_le_mul_of_nonneg_right a5 hu0.le
  have a7 : 0 ≤ M * u := by positivity
  rw [a3] at e2
  nlinarith

/-- **C205.** How exact the place of a point is. With a box and a page within the margins of no less than 2⁻⁵⁰⁰ and a box of no more than 2⁵⁰⁰,
every point of the box is put where exact arithmetic would put it, up to `3 · 2⁻⁵² · (size + scale · M)`, where `M` bounds the coordinates: a few units
in the last place of the page and, for drawings far from the origin, of the scaled coordinates. -/
theorem C205_close (bb : BBox ℚ) (size margin M W : ℚ) (hm0 : 0 ≤ margin)
    (hS : 2 ^ (-500 : ℤ) ≤ size - margin) (hW : W = max (bb.x1 - bb.x0) (bb.y1 - bb.y0)) (hW0 : 2 ^ (-500 : ℤ) ≤ W) (hW1 : W ≤ 2 ^ (500 : ℤ))
    (hM : |bb.x0| ≤ M ∧ |bb.x1| ≤ M ∧ |bb.y0| ≤ M ∧ |bb.y1| ≤ M) :
    ∃ p, page bb size margin = .ok p ∧ ∀ x y, bb.x0 ≤ x → x ≤ bb.x1 → bb.y0 ≤ y → y ≤ bb.y1 →
      let E := 3 * 2 ^ (-52 : ℤ) * (size + (size - margin) / W * M)
      |(p.put x y).1 - (size / 2 + (size - margin) / W * (x - (bb.x0 + bb.x1) / 2))| ≤ E ∧
        |(p.put x y).2 - (size / 2 + (size - margin) / W * (y - (bb.y0 + bb.y1) / 2))| ≤ E := by
  have k0 : (0 : ℚ) < 2 ^ (-500 : ℤ) := by positivity
  have k1 : (2 : ℚ) ^ (-1010 : ℤ) ≤ 2 ^ (-500 : ℤ) := zpow_le_zpow_right₀ (by norm_num) (by norm_num)
  have v0 : (0 : ℚ) ≤ 2 ^ (-52 : ℤ) := by positivity
  have v1 : (2 : ℚ) ^ (-52 : ℤ) ≤ 1 / 100 := by norm_num
  have Wp : 0 < W := lt_of_lt_of_le k0 hW0
  have Sp : 0 < size - margin := lt_of_lt_of_le k0 hS
  -- the three rounded numbers of the scale
  have eW : max (fl (bb.x1 - bb.x0)) (fl (bb.y1 - bb.y0)) = fl W := by
    rw [hW]
    rcases le_total (bb.x1 - bb.x0) (bb.y1 - bb.y0) with h | h
    · rw [max_eq_right h, max_eq_right (fl_mono h)]
    · rw [max_eq_left h, max_eq_left (fl_mono h)]
  have f1 : |fl (size - margin) - (size - margin)| ≤ (size - margin) * 2 ^ (-52 : ℤ) := by
    have := fl_rel_big (x := size - margin) (by rw [abs_of_pos Sp]; linarith)
    rwa [abs_of_pos Sp] at this
  have f2 : |fl W - W| ≤ W * 2 ^ (-52 : ℤ) := by
    have := fl_rel_big (x := W) (by rw [abs_of_pos Wp]; linarith)
    rwa [abs_of_pos Wp] at this
  have g1 : (size - margin) / 2 ≤ fl (size - margin) := by exact (half_double v1 Sp.le f1).1
  have g2 : fl W ≤ 2 * W := by exact (half_double v1 Wp.le f2).2
  have g3 : W / 2 ≤ fl W := by exact (half_double v1 Wp.le f2).1
  have fW0 : 0 < fl W := by linarith
  have big : (2 : ℚ) ^ (-1010 : ℤ) ≤ |fl (size - margin) / fl W| := by
    rw [abs_of_pos (div_pos (by linarith) fW0), le_div_iff₀ fW0]
    have q1 : (2 : ℚ) ^ (-1010 : ℤ) * fl W ≤ 2 ^ (-1010 : ℤ) * (2 * 2 ^ (500 : ℤ)) :=
      mul_le_mul_of_nonneg_left (by linarith) (by positivity)
    have q2 : (2 : ℚ) ^ (-1010 : ℤ) * (2 * 2 ^ (500 : ℤ)) ≤ 2 ^ (-500 : ℤ) / 2 := by
      rw [show (2 : ℚ) ^ (-1010 : ℤ) * (2 * 2 ^ (500 : ℤ)) = 2 ^ (-509 : ℤ) by
        rw [← zpow_one_add₀ (by norm_num), ← zpow_add₀ (by norm_num)]; norm_num,
        show (2 : ℚ) ^ (-500 : ℤ) / 2 = 2 ^ (-501 : ℤ) by rw [div_eq_mul_inv, ← zpow_sub_one₀ (by norm_num)]; norm_num]
      exact zpow_le_zpow_right₀ (by norm_num) (by norm_num)
    linarith
  have f3 := page_scale_err v0 v1 Sp.le Wp f1 f2 (fl_rel_big big)
  have f4 : |fl (size / 2) - size / 2| ≤ size / 2 * 2 ^ (-52 : ℤ) := by
    have hp : 0 < size / 2 := by linarith
    have hh : (2 : ℚ) ^ (-1010 : ℤ) ≤ 2 ^ (-500 : ℤ) / 2 := by
      rw [show (2 : ℚ) ^ (-500 : ℤ) / 2 = 2 ^ (-501 : ℤ) by rw [div_eq_mul_inv, ← zpow_sub_one₀ (by norm_num)]; norm_num]
      exact zpow_le_zpow_right₀ (by norm_num) (by norm_num)
    have := fl_rel_big (x := size / 2) (by rw [abs_of_pos hp]; linarith)
    rwa [abs_of_pos hp] at this
  obtain ⟨m1, m2, m3, m4⟩ := hM
  have M0 : 0 ≤ M := (abs_nonneg _).trans m1
  have WM : W ≤ 2 * M := by
    rw [hW]
    refine max_le ?_ ?_
    · have := (abs_le.mp m2).2; have := (abs_le.mp m1).1; linarith
    · have := (abs_le.mp m4).2; have := (abs_le.mp m3).1; linarith
  have M1 : (2 : ℚ) ^ (-501 : ℤ) ≤ M := by
    rw [show (2 : ℚ) ^ (-501 : ℤ) = 2 ^ (-500 : ℤ) / 2 by rw [div_eq_mul_inv, ← zpow_sub_one₀ (by norm_num)]; norm_num]
    linarith
  refine ⟨⟨fl (size / 2), fl (fl (size - margin) / fl W), (center bb).1, (center bb).2⟩, ?_, ?_⟩
  · simp only [page, eW, if_neg fW0.ne']
  · intro x y x0 x1 y0 y1
    constructor
    · exact axis_err v0 v1 hm0 (by linarith) Wp M0 (by rw [hW]; exact le_max_left _ _) x0 x1 f4 f3 (center_err M1 m1 m2)
    · exact axis_err v0 v1 hm0 (by linarith) Wp M0 (by rw [hW]; exact le_max_right _ _) y0 y1 f4 f3 (center_err M1 m3 m4)

/-- **C205, partial**: the drawing is on the page between the margins, up to that error. Missing: that it is so without an error, which is false
(`C205_fit_violated`). -/
theorem C205_fit_partial (bb : BBox ℚ) (size margin M W : ℚ) (hm0 : 0 ≤ margin)
    (hS : 2 ^ (-500 : ℤ) ≤ size - margin) (hW : W = max (bb.x1 - bb.x0) (bb.y1 - bb.y0)) (hW0 : 2 ^ (-500 : ℤ) ≤ W) (hW1 : W ≤ 2 ^ (500 : ℤ))
    (hM : |bb.x0| ≤ M ∧ |bb.x1| ≤ M ∧ |bb.y0| ≤ M ∧ |bb.y1| ≤ M) :
    ∃ p, page bb size margin = .ok p ∧ ∀ x y, bb.x0 ≤ x → x ≤ bb.x1 → bb.y0 ≤ y → y ≤ bb.y1 →
      let E := 3 * 2 ^ (-52 : ℤ) * (size + (size - margin) / W * M)
      (margin / 2 - E ≤ (p.put x y).1 ∧ (p.put x y).1 ≤ size - margin / 2 + E) ∧
        margin / 2 - E ≤ (p.put x y).2 ∧ (p.put x y).2 ≤ size - margin / 2 + E := by
  obtain ⟨p, h, hp⟩ := C205_close bb size margin M W hm0 hS hW hW0 hW1 hM
  have k0 : (0 : ℚ) < 2 ^ (-500 : ℤ) := by positivity
  have Wp : 0 < W := lt_of_lt_of_le k0 hW0
  have hm : margin ≤ size := by have := lt_of_lt_of_le k0 hS; linarith
  refine ⟨p, h, fun x y x0 x1 y0 y1 => ?_⟩
  obtain ⟨c1, c2⟩ := hp x y x0 x1 y0 y1
  exact ⟨axis_fit hm Wp (by rw [hW]; exact le_max_left _ _) x0 x1 c1, axis_fit hm Wp (by rw [hW]; exact le_max_right _ _) y0 y1 c2⟩

/-! ### The hypotheses can be met -/

/-- A drawing of ten units on a page of size 1: it sticks out (`C205_fit_violated`), by less than 10⁻¹⁴. -/
example : ∃ p, page ⟨0, 0, 10, 10⟩ 1 0 = .ok p ∧ (p.put 10 10).1 ≤ 1 + 1 / 10 ^ 14 := by
  have one : (2 : ℚ) ^ (-500 : ℤ) ≤ 1 := zpow_le_one_of_nonpos₀ (by norm_num) (by norm_num)
  have ten : (10 : ℚ) ≤ 2 ^ (500 : ℤ) := le_trans (by norm_num : (10 : ℚ) ≤ 2 ^ (4 : ℤ)) (zpow_le_zpow_right₀ (by norm_num) (by norm_num))
  obtain ⟨p, h, hp⟩ := C205_fit_partial ⟨0, 0, 10, 10⟩ 1 0 10 10 (by norm_num) (by rw [sub_zero]; exact one)
    (by norm_num) (one.trans (by norm_num)) ten (by norm_num)
  refine ⟨p, h, ((hp 10 10 (by norm_num) (by norm_num) (by norm_num) (by norm_num)).1.2).trans (by norm_num)⟩

/-- A drawing far from the origin: one unit wide at 500000, on a page of 600 with a margin of 20. The second term counts. -/
example : ∃ p, page ⟨500000, 0, 500001, 1⟩ 600 20 = .ok p ∧ (p.put 500001 1).1 ≤ 590 + 1 / 10 ^ 6 := by
  have one : (2 : ℚ) ^ (-500 : ℤ) ≤ 1 := zpow_le_one_of_nonpos₀ (by norm_num) (by norm_num)
  have big : (1 : ℚ) ≤ 2 ^ (500 : ℤ) := one_le_zpow₀ (by norm_num) (by norm_num)
  obtain ⟨p, h, hp⟩ := C205_fit_partial ⟨500000, 0, 500001, 1⟩ 600 20 500001 1 (by norm_num)
    (one.trans (by norm_num)) (by norm_num) one big (by norm_num)
  refine ⟨p, h, ((hp 500001 1 (by norm_num) (by norm_num) (by norm_num) (by norm_num)).1.2).trans (by norm_num)⟩

/-- A drawing of one point cannot be saved with a size. -/
example : page ⟨3, 4, 3, 4⟩ 600 20 = .error .zeroDivisionError := by
  have h : max (fl (3 - 3)) (fl (4 - 4)) = 0 := by decide +kernel
  simp only [page, h, if_true]

end Flt
end Coral
