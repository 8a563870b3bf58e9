import Verif.Model.FloatsT
import Verif.Props.FloatsH
import Mathlib.Analysis.Real.Pi.Bounds
import Mathlib.Analysis.SpecialFunctions.Trigonometric.Bounds

/-!
# Correctly rounded functions and their errors
-/
namespace Coral
namespace Flt

/-! ### Nearest floats -/

theorem nearest_neg' {y : ℝ} {r : ℚ} (h : Nearest y r) : Nearest (-y) (-r) := by
  refine ⟨double_neg h.1, fun d hd => ?_⟩
  have := h.2 (-d) (double_neg hd)
  push_cast at this ⊢
  rw [show -(r : ℝ) - -y = -(r - y) by ring, show (d : ℝ) - -y = -(-d - y) by ring, abs_neg, abs_neg]
  exact this

/-- Every number has a nearest float. -/
theorem exists_near (y : ℝ) : ∃ r, Nearest y r := by
  rcases le_total 0 y with h | h
  · obtain ⟨r, h1, -, h2⟩ := exists_nearest y h
    exact ⟨r, h1, h2⟩
  · obtain ⟨r, h1, -, h2⟩ := exists_nearest (-y) (by linarith)
    have := nearest_neg' (y := -y) (r := r) ⟨h1, h2⟩
    rw [neg_neg] at this
    exact ⟨-r, this⟩

/-- A correctly rounded library exists. -/
theorem exists_rounds : ∃ m : Libm, m.Rounds := by
  choose f hf using exists_near
  obtain ⟨s, hs⟩ := exists_roundsRoots
  exact ⟨⟨fun x => f (Real.sin x), fun x => f (Real.cos x), fun x => f (Real.arccos x), fun y x => f (Coral.atan2 y x), s⟩,
    fun _ => hf _, fun _ => hf _, fun _ _ _ => hf _, fun _ _ => hf _, hs⟩

/-- A float is its own nearest float. -/
theorem near_id {y : ℝ} {r d : ℚ} (h : Nearest y r) (hd : IsDouble d) (e : y = d) : r = d := by
  have := h.2 d hd
  rw [e, sub_self, abs_zero] at this
  have := abs_eq_zero.mp (le_antisymm this (abs_nonneg _))
  exact_mod_cast sub_eq_zero.mp this

theorem near_le {y : ℝ} {r d : ℚ} (h : Nearest y r) (hd : IsDouble d) (e : y ≤ d) : r ≤ d := by
  by_contra hc
  push Not at hc
  have hc' : (d : ℝ) < r := by exact_mod_cast hc
  have := h.2 d hd
  rw [abs_of_nonneg (by linarith), abs_of_nonneg (by linarith)] at this
  linarith

theorem le_near {y : ℝ} {r d : ℚ} (h : Nearest y r) (hd : IsDouble d) (e : (d : ℝ) ≤ y) : d ≤ r := by
  by_contra hc
  push Not at hc
  have hc' : (r : ℝ) < d := by exact_mod_cast hc
  have := h.2 d hd
  rw [abs_of_nonpos (by linarith), abs_of_nonpos (by linarith)] at this
  linarith

/-- A number strictly between two numbers that are rounded alike is rounded to the same float. -/
theorem near_eq {y : ℝ} {s r lo hi : ℚ} (h : Nearest y s) (a1 : (lo : ℝ) < y) (a2 : y < hi) (e1 : fl lo = r) (e2 : fl hi = r) : s = r := by
  have b := h.2 r (e1 ▸ fl_double lo)
  have c1 : |r - lo| ≤ |s - lo| := e1 ▸ fl_nearest lo h.1
  have c2 : |r - hi| ≤ |s - hi| := e2 ▸ fl_nearest hi h.1
  have c1' : |(r : ℝ) - lo| ≤ |(s : ℝ) - lo| := by exact_mod_cast c1
  have c2' : |(r : ℝ) - hi| ≤ |(s : ℝ) - hi| := by exact_mod_cast c2
  by_contra hne
  have hne' : (s : ℝ) ≠ r := by exact_mod_cast hne
  generalize (s : ℝ) = s at *
  generalize (r : ℝ) = r at *
  rw [← sq_le_sq] at b c1' c2'
  rcases lt_or_gt_of_ne hne' with h | h
  · nlinarith
  · nlinarith

/-- The unit of the errors below, `2⁻⁵²`. -/
noncomputable def w : ℝ := 2 ^ (-52 : ℤ)

theorem w_pos : 0 < w := by unfold w; positivity

theorem w_le : w ≤ 1 / 1000000 := by unfold w; norm_num

theorem fl_err_real (x : ℚ) : |(fl x : ℝ) - x| ≤ |(x : ℝ)| * (w / 2) + w / 1024 := by
  have h := fl_error x
  have h' : ((|fl x - x| : ℚ) : ℝ) ≤ ((|x| * 2 ^ (-53 : ℤ) + 2 ^ (-1075 : ℤ) : ℚ) : ℝ) := Rat.cast_le.mpr h
  push_cast at h'
  have e1 : (2 : ℝ) ^ (-53 : ℤ) = w / 2 := by unfold w; norm_num
  have e2 : (2 : ℝ) ^ (-1075 : ℤ) ≤ w / 1024 := by
    rw [show w / 1024 = (2 : ℝ) ^ (-62 : ℤ) by unfold w; norm_num]
    exact zpow_le_zpow_right₀ (by norm_num) (by norm_num)
  rw [e1] at h'
  linarith

theorem near_err {y : ℝ} {r : ℚ} (h : Nearest y r) : |(r : ℝ) - y| ≤ |y| * (w / 2) + w / 1024 := by
  have hw := w_pos
  refine le_of_forall_pos_le_add fun ε hε => ?_
  obtain ⟨q, q1, q2⟩ := exists_rat_btwn (show y - min (ε / 2) ε < y by have := lt_min (half_pos hε) hε; linarith)
  have hm := min_le_left (ε / 2) ε
  have b := h.2 (fl q) (fl_double q)
  have c := fl_err_real q
  have t : |(fl q : ℝ) - y| ≤ |(fl q : ℝ) - q| + |(q : ℝ) - y| := abs_sub_le _ _ _
  have t2 : |(q : ℝ) - y| ≤ ε / 2 := by rw [abs_of_nonpos (by linarith)]; linarith
  have t3 : |(q : ℝ)| ≤ |y| + ε / 2 := by
    have := abs_sub_abs_le_abs_sub (q : ℝ) y
    linarith
  have t4 : |(q : ℝ)| * (w / 2) ≤ (|y| + ε / 2) * (w / 2) := mul_le_mul_of_nonneg_right t3 (by linarith)
  have := w_le
  nlinarith

/-- Values of at most 1 are rounded by less than one unit. -/
theorem near_err_one {y : ℝ} {r : ℚ} (h : Nearest y r) (hy : |y| ≤ 1) : |(r : ℝ) - y| ≤ w := by
  have := near_err h
  have := w_pos
  nlinarith

theorem double_one : IsDouble 1 := by simpa using double_int (n := 1) (by norm_num)

theorem near_abs_one {y : ℝ} {r : ℚ} (h : Nearest y r) (hy : |y| ≤ 1) : |(r : ℝ)| ≤ 1 := by
  have h1 := near_le h double_one (by push_cast; exact (abs_le.mp hy).2)
  have h2 := le_near h (double_neg double_one) (by push_cast; exact (abs_le.mp hy).1)
  exact abs_le.mpr ⟨by exact_mod_cast h2, by exact_mod_cast h1⟩

theorem fl_abs_one {x : ℚ} (h : |(x : ℝ)| ≤ 1) : |(fl x : ℝ)| ≤ 1 := by
  obtain ⟨h1, h2⟩ := abs_le.mp h
  have h1' : -1 ≤ x := by exact_mod_cast h1
  have h2' : x ≤ 1 := by exact_mod_cast h2
  exact abs_le.mpr ⟨by exact_mod_cast le_fl (double_neg double_one) h1', by exact_mod_cast fl_le double_one h2'⟩

/-- A product of two factors of at most 1, each with an error. -/
theorem mul_err {a b : ℚ} {A B e f : ℝ} (ha : |(a : ℝ)| ≤ 1) (hb : |(b : ℝ)| ≤ 1) (hA : |A| ≤ 1) (h1 : |(a : ℝ) - A| ≤ e) (h2 : |(b : ℝ) - B| ≤ f) :
    |(fl (a * b) : ℝ) - A * B| ≤ e + f + w ∧ |(fl (a * b) : ℝ)| ≤ 1 := by
  have hab : |((a * b : ℚ) : ℝ)| ≤ 1 := by
    push_cast
    rw [abs_mul]
    exact mul_le_one₀ ha (abs_nonneg _) hb
  refine ⟨?_, fl_abs_one hab⟩
  have c := fl_err_real (a * b)
  have hw := w_pos
  have t : |(fl (a * b) : ℝ) - A * B| ≤ |(fl (a * b) : ℝ) - ((a * b : ℚ) : ℝ)| + |((a * b : ℚ) : ℝ) - A * B| := abs_sub_le _ _ _
  have t1 : |((a * b : ℚ) : ℝ) - A * B| ≤ e + f := by
    push_cast
    rw [show (a : ℝ) * b - A * B = (a - A) * b + A * (b - B) by ring]
    refine (abs_add_le _ _).trans ?_
    rw [abs_mul, abs_mul]
    have := mul_le_mul h1 hb (abs_nonneg _) ((abs_nonneg _).trans h1)
    have := mul_le_mul hA h2 (abs_nonneg _) zero_le_one
    linarith
  nlinarith

/-! ### Angles -/

theorem degree_eq : degree = 5030569068109113 / 288230376151711744 := by decide +kernel

theorem degree_err : |(degree : ℝ) - Real.pi / 180| ≤ 3 / 10 ^ 18 := by
  have h1 := Real.pi_gt_d20
  have h2 := Real.pi_lt_d20
  rw [degree_eq, abs_le]
  push_cast
  constructor <;> norm_num at h1 h2 ⊢ <;> linarith

theorem w_eq : w = 1 / 4503599627370496 := by unfold w; norm_num

/-- What `math.radians` returns is off by less than a few units. -/
theorem radians_err {x : ℚ} (h : |(x : ℝ)| ≤ 361) : |(radians x : ℝ) - rad x| ≤ 9 * w := by
  have hd := degree_err
  have c := fl_err_real (x * degree)
  have e : |((x * degree : ℚ) : ℝ) - rad x| ≤ 361 * (3 / 10 ^ 18) := by
    push_cast
    rw [rad, show (x : ℝ) * degree - x * Real.pi / 180 = x * (degree - Real.pi / 180) by ring, abs_mul]
    exact mul_le_mul h hd (abs_nonneg _) (by norm_num)
  have f : |((x * degree : ℚ) : ℝ)| ≤ 7 := by
    push_cast
    rw [abs_mul, degree_eq]
    push_cast
    rw [abs_of_pos (a := (5030569068109113 / 288230376151711744 : ℝ)) (by norm_num)]
    refine (mul_le_mul_of_nonneg_right h (by norm_num)).trans (by norm_num)
  have t : |(radians x : ℝ) - rad x| ≤ |(fl (x * degree) : ℝ) - ((x * degree : ℚ) : ℝ)| + |((x * degree : ℚ) : ℝ) - rad x| := abs_sub_le _ _ _
  have hw := w_eq
  have := w_pos
  have f' := mul_le_mul_of_nonneg_right f (by linarith : (0 : ℝ) ≤ w / 2)
  have : (361 : ℝ) * (3 / 10 ^ 18) ≤ 5 * w := by rw [hw]; norm_num
  linarith

theorem rad_abs {x : ℝ} {k : ℝ} (h : |x| ≤ k) : |rad x| ≤ k * (18 / 1000) := by
  have h2 := Real.pi_lt_d2
  rw [rad, mul_div_assoc, abs_mul, abs_of_pos (a := Real.pi / 180) (by positivity)]
  exact mul_le_mul h (by linarith) (by positivity) ((abs_nonneg _).trans h)

/-- Half the difference of two angles. -/
theorem half_err {x y : ℚ} (h : |(y : ℝ) - x| ≤ 360) : |(fl (radians (fl (y - x)) / 2) : ℝ) - rad (y - x) / 2| ≤ 11 * w := by
  have hw := w_pos
  have hle := w_le
  have c := fl_err_real (y - x)
  push_cast at c
  have c' : |(fl (y - x) : ℝ) - (y - x)| ≤ 181 * w := by
    have := mul_le_mul_of_nonneg_right h (by linarith : (0 : ℝ) ≤ w / 2)
    linarith
  have d1 : |(fl (y - x) : ℝ)| ≤ 361 := by
    have := abs_sub_abs_le_abs_sub (fl (y - x) : ℝ) ((y : ℝ) - x)
    linarith
  have d := radians_err d1
  have r1 : |rad (fl (y - x) : ℝ) - rad (y - x)| ≤ 4 * w := by
    rw [← rad_sub]
    have := rad_abs c'
    linarith
  have r2 : |(radians (fl (y - x)) : ℝ) - rad (y - x)| ≤ 13 * w := by
    have := abs_sub_le (radians (fl (y - x)) : ℝ) (rad (fl (y - x) : ℝ)) (rad (y - x))
    linarith
  have s1 : |rad ((y : ℝ) - x)| ≤ 7 := by
    have := rad_abs h
    linarith
  have e := fl_err_real (radians (fl (y - x)) / 2)
  push_cast at e
  have s2 : |(radians (fl (y - x)) : ℝ) / 2| ≤ 4 := by
    rw [abs_div, abs_two]
    have := abs_sub_abs_le_abs_sub (radians (fl (y - x)) : ℝ) (rad ((y : ℝ) - x))
    linarith
  have e' := mul_le_mul_of_nonneg_right s2 (by linarith : (0 : ℝ) ≤ w / 2)
  have r3 : |(radians (fl (y - x)) : ℝ) / 2 - rad (y - x) / 2| ≤ 13 * w / 2 := by
    rw [← sub_div, abs_div, abs_two]
    linarith
  have := abs_sub_le (fl (radians (fl (y - x)) / 2) : ℝ) ((radians (fl (y - x)) : ℝ) / 2) (rad (y - x) / 2)
  linarith

theorem sin_err {m : Libm} (hm : m.Rounds) {x : ℚ} {X e : ℝ} (h : |(x : ℝ) - X| ≤ e) : |(m.sin x : ℝ) - Real.sin X| ≤ e + w ∧ |(m.sin x : ℝ)| ≤ 1 := by
  have h1 := near_err_one (hm.sin x) (Real.abs_sin_le_one _)
  have h2 := Real.abs_sin_sub_sin_le x X
  have h3 := abs_sub_le (m.sin x : ℝ) (Real.sin x) (Real.sin X)
  exact ⟨by linarith, near_abs_one (hm.sin x) (Real.abs_sin_le_one _)⟩

theorem cos_err {m : Libm} (hm : m.Rounds) {x : ℚ} {X e : ℝ} (h : |(x : ℝ) - X| ≤ e) : |(m.cos x : ℝ) - Real.cos X| ≤ e + w ∧ |(m.cos x : ℝ)| ≤ 1 := by
  have h1 := near_err_one (hm.cos x) (Real.abs_cos_le_one _)
  have h2 := Real.abs_cos_sub_cos_le x X
  have h3 := abs_sub_le (m.cos x : ℝ) (Real.cos x) (Real.cos X)
  exact ⟨by linarith, near_abs_one (hm.cos x) (Real.abs_cos_le_one _)⟩

/-! ### Series -/

/-- The first `k` terms of the series of the cosine. -/
def cosS (x : ℚ) : ℕ → ℚ
  | 0 => 0
  | k + 1 => cosS x k + (-1) ^ k * x ^ (2 * k) / (2 * k).factorial

/-- The first `k` terms of the series of the sine. -/
def sinS (x : ℚ) : ℕ → ℚ
  | 0 => 0
  | k + 1 => sinS x k + (-1) ^ k * x ^ (2 * k + 1) / (2 * k + 1).factorial

theorem exp_series (x : ℚ) (k : ℕ) :
    ∑ i ∈ Finset.range (2 * k), ((x : ℂ) * Complex.I) ^ i / (i.factorial : ℂ) = (cosS x k : ℂ) + (sinS x k : ℂ) * Complex.I := by
  induction k with
  | zero => simp [cosS, sinS]
  | succ k ih =>
    rw [show 2 * (k + 1) = 2 * k + 1 + 1 by ring, Finset.sum_range_succ, Finset.sum_range_succ, ih, cosS, sinS]
    have e1 : ((x : ℂ) * Complex.I) ^ (2 * k) = (-1) ^ k * (x : ℂ) ^ (2 * k) := by
      rw [mul_pow, pow_mul Complex.I, Complex.I_sq]; ring
    rw [pow_succ, e1]
    push_cast
    ring

theorem series_err (x : ℚ) (k : ℕ) (h : |x| / (2 * k + 1) ≤ 1 / 2) :
    |Real.cos x - cosS x k| ≤ |(x : ℝ)| ^ (2 * k) / (2 * k).factorial * 2 ∧ |Real.sin x - sinS x k| ≤ |(x : ℝ)| ^ (2 * k) / (2 * k).factorial * 2 := by
  have hn : ‖((x : ℂ) * Complex.I)‖ = |(x : ℝ)| := by
    rw [norm_mul, Complex.norm_I, mul_one]
    have := Complex.norm_real (x : ℝ)
    simpa using this
  have h' : ‖((x : ℂ) * Complex.I)‖ / (2 * k).succ ≤ 1 / 2 := by
    rw [hn]
    have : ((|x| / (2 * k + 1) : ℚ) : ℝ) ≤ ((1 / 2 : ℚ) : ℝ) := Rat.cast_le.mpr h
    push_cast at this ⊢
    exact this
  have b := Complex.exp_bound' h'
  rw [exp_series, hn] at b
  have e : Complex.exp ((x : ℂ) * Complex.I) = (Real.cos x : ℂ) + (Real.sin x : ℂ) * Complex.I := by
    rw [Complex.exp_mul_I]
    push_cast
    rfl
  rw [e] at b
  have p : ∀ c s c' s' : ℝ, ((c : ℂ) + (s : ℂ) * Complex.I - ((c' : ℂ) + (s' : ℂ) * Complex.I)).re = c - c' ∧
      ((c : ℂ) + (s : ℂ) * Complex.I - ((c' : ℂ) + (s' : ℂ) * Complex.I)).im = s - s' := by
    intro c s c' s'
    constructor <;> simp
  obtain ⟨r, i⟩ := p (Real.cos x) (Real.sin x) (cosS x k) (sinS x k)
  rw [Complex.ofReal_ratCast, Complex.ofReal_ratCast] at r i
  constructor
  · rw [← r]; exact (Complex.abs_re_le_norm _).trans b
  · rw [← i]; exact (Complex.abs_im_le_norm _).trans b

/-- A rounded cosine, computed from the series. -/
theorem cos_eq {m : Libm} (hm : m.Rounds) (x r ε : ℚ) (k : ℕ) (h : |x| / (2 * k + 1) ≤ 1 / 2) (hε : |x| ^ (2 * k) / (2 * k).factorial * 2 < ε)
    (e1 : fl (cosS x k - ε) = r) (e2 : fl (cosS x k + ε) = r) : m.cos x = r := by
  have b := (series_err x k h).1
  have hε' : ((|x| ^ (2 * k) / (2 * k).factorial * 2 : ℚ) : ℝ) < ε := Rat.cast_lt.mpr hε
  push_cast at hε'
  obtain ⟨b1, b2⟩ := abs_le.mp b
  exact near_eq (hm.cos x) (by push_cast; linarith) (by push_cast; linarith) e1 e2

/-- A rounded sine, computed from the series. -/
theorem sin_eq {m : Libm} (hm : m.Rounds) (x r ε : ℚ) (k : ℕ) (h : |x| / (2 * k + 1) ≤ 1 / 2) (hε : |x| ^ (2 * k) / (2 * k).factorial * 2 < ε)
    (e1 : fl (sinS x k - ε) = r) (e2 : fl (sinS x k + ε) = r) : m.sin x = r := by
  have b := (series_err x k h).2
  have hε' : ((|x| ^ (2 * k) / (2 * k).factorial * 2 : ℚ) : ℝ) < ε := Rat.cast_lt.mpr hε
  push_cast at hε'
  obtain ⟨b1, b2⟩ := abs_le.mp b
  exact near_eq (hm.sin x) (by push_cast; linarith) (by push_cast; linarith) e1 e2

end Flt
end Coral
