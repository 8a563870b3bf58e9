import Verif.Model.FloatsZ
import Verif.Props.Floats
import Verif.Props.Coord

/-!
# Collinearity and simplification on floats (C200, C201)
-/
namespace Coral
namespace Flt

/-! ### C200: `collinear` -/

/-- **C200**: exchanging the last two points, or the axes, does not change the answer. -/
theorem C200_symmetric (a b c : ℚ × ℚ) : collinear a b c = collinear a c b ∧ collinear a b c = collinear a.swap b.swap c.swap := by
  constructor
  · rw [Bool.eq_iff_iff, collinear, collinear, beq_iff_eq, beq_iff_eq]
    exact eq_comm
  · rw [Bool.eq_iff_iff, collinear, collinear, beq_iff_eq, beq_iff_eq]
    simp only [Prod.fst_swap, Prod.snd_swap]
    have e : ∀ u v : ℚ, fl (u - v) = - fl (v - u) := fun u v => by rw [← fl_neg, neg_sub]
    rw [e a.2 c.2, e b.1 a.1, e a.2 b.2, e c.1 a.1, neg_mul_neg, neg_mul_neg, mul_comm (fl (c.2 - a.2)), mul_comm (fl (b.2 - a.2))]
    exact eq_comm

theorem grid_double {i : ℤ} {e : ℤ} {k : ℕ} (h : |i| ≤ 2 ^ k) (hk : k ≤ 53) (he : -1074 ≤ e) : fl ((i : ℚ) * 2 ^ e) = i * 2 ^ e :=
  fl_id (double_mk (h.trans (pow_le_pow_right₀ (by norm_num) hk)) he)

/-- **C200, partial**: on points of a grid of step 2ᵉ, at most 2²⁵ steps from the origin, the answer is right: for instance for all integers up
to 33 million. -/
theorem C200_grid_partial (e : ℤ) (he : -537 ≤ e) (a b c : ℤ × ℤ) (h : ∀ p ∈ [a, b, c], |p.1| ≤ 2 ^ 25 ∧ |p.2| ≤ 2 ^ 25) :
    (collinear (a.1 * 2 ^ e, a.2 * 2 ^ e) (b.1 * 2 ^ e, b.2 * 2 ^ e) (c.1 * 2 ^ e, c.2 * 2 ^ e) = true ↔
      ∃ u v w : ℚ, (u ≠ 0 ∨ v ≠ 0) ∧ ∀ p ∈ [a, b, c], u * p.1 + v * p.2 = w) := by
  obtain ⟨xa, ya⟩ := a
  obtain ⟨xb, yb⟩ := b
  obtain ⟨xc, yc⟩ := c
  simp only [List.mem_cons, List.not_mem_nil, or_false, forall_eq_or_imp, forall_eq] at h
  obtain ⟨⟨a1, a2⟩, ⟨b1, b2⟩, ⟨c1, c2⟩⟩ := h
  have diff : ∀ {i j : ℤ}, |i| ≤ 2 ^ 25 → |j| ≤ 2 ^ 25 → |i - j| ≤ 2 ^ 26 := by
    intro i j hi hj
    rw [abs_le] at hi hj ⊢
    constructor <;> linarith [hi.1, hi.2, hj.1, hj.2]
  have sub : ∀ {i j : ℤ}, |i| ≤ 2 ^ 25 → |j| ≤ 2 ^ 25 → fl ((i : ℚ) * 2 ^ e - j * 2 ^ e) = ((i - j : ℤ) : ℚ) * 2 ^ e := by
    intro i j hi hj
    rw [← sub_mul, ← Int.cast_sub]
    exact grid_double (diff hi hj) (by norm_num) (by omega)
  have mul : ∀ {i j : ℤ}, |i| ≤ 2 ^ 26 → |j| ≤ 2 ^ 26 → fl ((i : ℚ) * 2 ^ e * (j * 2 ^ e)) = ((i * j : ℤ) : ℚ) * 2 ^ (2 * e) := by
    intro i j hi hj
    have e2 : (i : ℚ) * 2 ^ e * (j * 2 ^ e) = ((i * j : ℤ) : ℚ) * 2 ^ (2 * e) := by
      rw [two_mul, zpow_add₀ (by norm_num)]; push_cast; ring
    rw [e2]
    refine grid_double (k := 52) ?_ (by norm_num) (by omega)
    rw [abs_mul]
    calc |i| * |j| ≤ 2 ^ 26 * 2 ^ 26 := mul_le_mul hi hj (abs_nonneg _) (by norm_num)
      _ = 2 ^ 52 := by norm_num
  have key : collinear ((xa : ℚ) * 2 ^ e, (ya : ℚ) * 2 ^ e) (xb * 2 ^ e, yb * 2 ^ e) (xc * 2 ^ e, yc * 2 ^ e) = true ↔
      Coral.collinear ((xa : ℚ), (ya : ℚ)) ((xb : ℚ), (yb : ℚ)) ((xc : ℚ), (yc : ℚ)) = true := by
    rw [collinear, Coral.collinear, beq_iff_eq, beq_iff_eq]
    simp only []
    rw [sub a1 c1, sub b2 a2, sub a1 b1, sub c2 a2, mul (diff a1 c1) (diff b2 a2), mul (diff a1 b1) (diff c2 a2),
      mul_left_inj' (two_zpow_pos (2 * e)).ne']
    push_cast
    rfl
  rw [key, C14_collinear_iff_line]
  simp only [List.mem_cons, List.not_mem_nil, or_false, forall_eq_or_imp, forall_eq]

/-- **C200, partial**: three points on a line whose distances along the axes from the first are floats are never said to be off it. -/
theorem C200_line_partial (a b c : ℚ × ℚ) (hb : IsDouble (a.1 - b.1) ∧ IsDouble (b.2 - a.2)) (hc : IsDouble (a.1 - c.1) ∧ IsDouble (c.2 - a.2))
    (h : ∃ u v w : ℚ, (u ≠ 0 ∨ v ≠ 0) ∧ ∀ p ∈ [a, b, c], u * p.1 + v * p.2 = w) : collinear a b c = true := by
  have := (C14_collinear_iff_line a b c).mpr h
  rw [Coral.collinear, beq_iff_eq] at this
  rw [collinear, beq_iff_eq, fl_id hb.1, fl_id hb.2, fl_id hc.1, fl_id hc.2, this]

theorem prod_error (D E : ℚ) : |fl (fl D * fl E) - D * E| ≤ |D * E| * 2 ^ (-51 : ℤ) + (|D| + |E| + 1) * 2 ^ (-1073 : ℤ) := by
  have hD := fl_error D
  have hE := fl_error E
  have hP := fl_error (fl D * fl E)
  set u : ℚ := 2 ^ (-53 : ℤ) with hu
  set t : ℚ := 2 ^ (-1075 : ℤ) with ht
  have hu0 : 0 < u := two_zpow_pos _
  have ht0 : 0 < t := two_zpow_pos _
  have hu1 : u ≤ 1 / 1000 := by rw [hu]; norm_num
  have ht1 : t ≤ u := zpow_le_zpow_right₀ (by norm_num) (by norm_num)
  have e1 : (2 : ℚ) ^ (-51 : ℤ) = 4 * u := by rw [hu, show (-51 : ℤ) = -53 + 2 by norm_num, zpow_add₀ (by norm_num)]; norm_num
  have e2 : (2 : ℚ) ^ (-1073 : ℤ) = 4 * t := by rw [ht, show (-1073 : ℤ) = -1075 + 2 by norm_num, zpow_add₀ (by norm_num)]; ring
  rw [e1, e2, abs_mul]
  clear_value u t
  have ht2 : t ≤ 1 / 1000 := ht1.trans hu1
  have d0 := abs_nonneg D
  have f0 := abs_nonneg E
  have hfE : |fl E| ≤ |E| * (1 + u) + t := by
    have := abs_sub_abs_le_abs_sub (fl E) E
    linarith
  have hfD : |fl D| ≤ |D| * (1 + u) + t := by
    have := abs_sub_abs_le_abs_sub (fl D) D
    linarith
  have h1 : |fl D * fl E - D * E| ≤ (|D| * u + t) * (|E| * (1 + u) + t) + |D| * (|E| * u + t) := by
    have : fl D * fl E - D * E = (fl D - D) * fl E + D * (fl E - E) := by ring
    rw [this]
    refine (abs_add_le _ _).trans (add_le_add ?_ ?_)
    · rw [abs_mul]
      exact mul_le_mul hD hfE (abs_nonneg _) (by positivity)
    · rw [abs_mul]
      exact mul_le_mul_of_nonneg_left hE d0
  have h2 : |fl D * fl E| ≤ (|D| * (1 + u) + t) * (|E| * (1 + u) + t) := by
    rw [abs_mul]
    exact mul_le_mul hfD hfE (abs_nonneg _) (by positivity)
  have h3 : |fl (fl D * fl E) - D * E| ≤ |fl D * fl E| * u + t + |fl D * fl E - D * E| := by
    have := abs_sub_le (fl (fl D * fl E)) (fl D * fl E) (D * E)
    linarith
  refine h3.trans ?_
  have p : 0 ≤ |D| * |E| := mul_nonneg d0 f0
  have h2' := mul_le_mul_of_nonneg_right h2 hu0.le
  have q1 : u * u ≤ u / 1000 := by nlinarith
  have q2 : u * u * u ≤ u / 1000 := by nlinarith [mul_nonneg hu0.le hu0.le]
  have q3 : t * t ≤ t / 1000 := by nlinarith
  have q4 : u * t ≤ t / 1000 := by nlinarith
  have q5 : u * u * t ≤ t / 1000 := by nlinarith [mul_nonneg hu0.le ht0.le]
  have q6 : u * (t * t) ≤ t / 1000 := by nlinarith [mul_nonneg ht0.le ht0.le]
  have r1 := mul_le_mul_of_nonneg_left q1 p
  have r2 := mul_le_mul_of_nonneg_left q2 p
  have r4 := mul_le_mul_of_nonneg_left q4 d0
  have r5 := mul_le_mul_of_nonneg_left q5 d0
  have r4' := mul_le_mul_of_nonneg_left q4 f0
  have r5' := mul_le_mul_of_nonneg_left q5 f0
  have s1 : 0 ≤ |D| * t := by positivity
  have s2 : 0 ≤ |E| * t := by positivity
  have s3 : 0 ≤ |D| * |E| * u := by positivity
  linarith

/-- **C200, partial**: if the answer is yes, twice the area of the triangle is next to nothing, relative to the products compared. -/
theorem C200_flat_partial (a b c : ℚ × ℚ) (h : collinear a b c = true) :
    |(a.1 - c.1) * (b.2 - a.2) - (a.1 - b.1) * (c.2 - a.2)| ≤
      (|(a.1 - c.1) * (b.2 - a.2)| + |(a.1 - b.1) * (c.2 - a.2)|) * 2 ^ (-51 : ℤ) +
      (|a.1 - c.1| + |b.2 - a.2| + |a.1 - b.1| + |c.2 - a.2| + 2) * 2 ^ (-1073 : ℤ) := by
  rw [collinear, beq_iff_eq] at h
  have h1 := prod_error (a.1 - c.1) (b.2 - a.2)
  have h2 := prod_error (a.1 - b.1) (c.2 - a.2)
  rw [h] at h1
  rw [abs_sub_comm] at h1
  have := abs_sub_le ((a.1 - c.1) * (b.2 - a.2)) (fl (fl (a.1 - b.1) * fl (c.2 - a.2))) ((a.1 - b.1) * (c.2 - a.2))
  refine this.trans ?_
  generalize (2 : ℚ) ^ (-51 : ℤ) = u at *
  generalize (2 : ℚ) ^ (-1073 : ℤ) = t at *
  linarith

theorem fl_tiny : fl (-(2 : ℚ) ^ (-600 : ℤ) * 2 ^ (-600 : ℤ)) = 0 := by
  have e : -(2 : ℚ) ^ (-600 : ℤ) * 2 ^ (-600 : ℤ) = -(2 ^ (-1200 : ℤ)) := by rw [neg_mul, ← zpow_add₀ (by norm_num)]; norm_num
  rw [e, fl_neg, neg_eq_zero]
  have hx : (2 : ℚ) ^ (-1200 : ℤ) ≠ 0 := (two_zpow_pos _).ne'
  have he : expOf ((2 : ℚ) ^ (-1200 : ℤ)) = -1074 := by
    refine le_antisymm (exp_le hx le_rfl ?_) (exp_ge _)
    rw [abs_of_pos (two_zpow_pos _)]
    exact zpow_lt_zpow_right₀ (by norm_num) (by norm_num)
  have h0 := fl_grid ((2 : ℚ) ^ (-1200 : ℤ)) 0
  have : pyRound ((2 : ℚ) ^ (-1200 : ℤ) / 2 ^ (-1074 : ℤ)) = 0 := by
    rw [← zpow_sub₀ (by norm_num)]
    norm_num
    decide +kernel
  rw [fl, he, this]
  simp

/-- **C200, violated**: the answer is yes for a triangle whose sides are too short for their product. -/
theorem C200_tiny_violated : collinear (0, 0) (2 ^ (-600 : ℤ), 0) (0, 2 ^ (-600 : ℤ)) = true ∧
    ¬ ∃ u v w : ℚ, (u ≠ 0 ∨ v ≠ 0) ∧ ∀ p ∈ [((0 : ℚ), (0 : ℚ)), ((2 : ℚ) ^ (-600 : ℤ), 0), (0, (2 : ℚ) ^ (-600 : ℤ))], u * p.1 + v * p.2 = w := by
  have hd : IsDouble ((2 : ℚ) ^ (-600 : ℤ)) := by simpa using double_mk (m := 1) (e := -600) (by norm_num) (by norm_num)
  have h0 : fl 0 = 0 := fl_id (by simpa using double_int (n := 0) (by norm_num))
  constructor
  · rw [collinear, beq_iff_eq]
    simp only [sub_self, h0, zero_sub, sub_zero, zero_mul, fl_neg, fl_id hd]
    exact fl_tiny.symm
  · rintro ⟨u, v, w, h, hp⟩
    simp only [List.mem_cons, List.not_mem_nil, or_false, forall_eq_or_imp, forall_eq, mul_zero, add_zero, zero_add] at hp
    obtain ⟨rfl, h1, h2⟩ := hp
    have hne := (two_zpow_pos (-600)).ne'
    rcases h with h | h
    · exact h ((mul_eq_zero.mp h1).resolve_right hne)
    · exact h ((mul_eq_zero.mp h2).resolve_right hne)

/-- **C200, violated**: the answer is no for three points of the line y = 3 x. -/
theorem C200_line_violated : collinear (1 / 2, 3 / 2) (3 / 2, 9 / 2) (2 ^ 52 + 2, 3 * 2 ^ 52 + 6) = false ∧
    (∀ p ∈ [((1 : ℚ) / 2, (3 : ℚ) / 2), (3 / 2, 9 / 2), (2 ^ 52 + 2, 3 * 2 ^ 52 + 6)], p.2 = 3 * p.1 ∧ IsDouble p.1 ∧ IsDouble p.2) := by
  constructor
  · decide +kernel
  · intro p hp
    simp only [List.mem_cons, List.not_mem_nil, or_false] at hp
    rcases hp with rfl | rfl | rfl
    · exact ⟨by norm_num, ⟨1, -1, by norm_num, by norm_num, by norm_num⟩, ⟨3, -1, by norm_num, by norm_num, by norm_num⟩⟩
    · exact ⟨by norm_num, ⟨3, -1, by norm_num, by norm_num, by norm_num⟩, ⟨9, -1, by norm_num, by norm_num, by norm_num⟩⟩
    · exact ⟨by norm_num, ⟨2 ^ 52 + 2, 0, by norm_num, by norm_num, by norm_num⟩, ⟨3 * 2 ^ 51 + 3, 1, by norm_num, by norm_num, by norm_num⟩⟩

/-- The grid theorem applies to thirds of a line. -/
example : collinear (0 * 2 ^ (0 : ℤ), 0 * 2 ^ (0 : ℤ)) (1 * 2 ^ (0 : ℤ), 3 * 2 ^ (0 : ℤ)) (2 * 2 ^ (0 : ℤ), 6 * 2 ^ (0 : ℤ)) = true := by
  have := (C200_grid_partial 0 (by norm_num) (0, 0) (1, 3) (2, 6) (by decide)).mpr
    ⟨3, -1, 0, by norm_num, by
      intro p hp
      simp only [List.mem_cons, List.not_mem_nil, or_false] at hp
      rcases hp with rfl | rfl | rfl <;> norm_num⟩
  simpa using this

/-! ### C201: `sqr_fit` and `simplify` -/

theorem nearest_double_error {y : ℚ} (hd : IsDouble y) (h : |y| ≤ 2 ^ 52) : |(nearest y : ℚ) - y| ≤ 1 / 2 + 2 ^ (-54 : ℤ) := by
  have key : ∀ y : ℚ, 0 ≤ y → IsDouble y → |y| ≤ 2 ^ 52 → |(nearest y : ℚ) - y| ≤ 1 / 2 + 2 ^ (-54 : ℤ) := by
    intro y h0 hd h
    by_cases hm : Misrounded y
    · rcases id hm with h1 | ⟨n, hn, -, h2, -⟩
      · rw [abs_of_nonneg h0] at h1
        have hz : Coral.nearest y = 0 := by
          rw [nearest_nonneg h0, Int.floor_eq_zero_iff, h1]
          constructor <;> norm_num
        rw [(nearest_pos_cases hd h0).2 hm, hz, h1]
        norm_num
      · exfalso
        rw [hn, ← Int.cast_abs] at h
        have : |n| ≤ 2 ^ 52 := by exact_mod_cast h
        omega
    · rw [(nearest_pos_cases hd h0).1 hm]
      exact (nearest_abs y).trans (le_add_of_nonneg_right (two_zpow_pos _).le)
  rcases le_or_gt 0 y with h0 | h0
  · exact key y h0 hd h
  · have := key (-y) (by linarith) (double_neg hd) (by rwa [abs_neg])
    rw [nearest_neg_eq h0.ne] at this
    push_cast at this
    rw [show -(nearest y : ℚ) - -y = -((nearest y : ℚ) - y) by ring, abs_neg] at this
    exact this

/-- The number of steps of size `m` that `sqr_fit` finds for the coordinate `x`. -/
def steps (x m : ℚ) : Int := nearest (fl (x / m))

theorem fl_le_52 {q : ℚ} (h : |q| ≤ 2 ^ 52) : |fl q| ≤ 2 ^ 52 := by
  have hd : IsDouble ((2 : ℚ) ^ 52) := ⟨1, 52, by norm_num, by norm_num, by norm_num⟩
  rw [abs_le] at h ⊢
  exact ⟨le_fl (double_neg hd) h.1, fl_le hd h.2⟩

/-- **C201**: the points that `sqr_fit` yields are those of `steps`, one for each point; a step of 0 raises if there is a point. -/
theorem C201_points (m : ℚ) (s : List (ℚ × ℚ)) :
    sqrFit m s = (if m = 0 ∧ s ≠ [] then ([], some .zeroDivisionError) else (s.map (fun p => (steps p.1 m, steps p.2 m)), none)) := by
  induction s with
  | nil => simp [sqrFit]
  | cons p s ih =>
    obtain ⟨x, y⟩ := p
    rw [sqrFit]
    by_cases hm : m = 0
    · simp [hm]
    · rw [if_neg hm, ih]
      simp [hm, steps]

/-- **C201, violated**: a line that starts at 0.49999999999999994 is simplified to one that starts at 1, in exact arithmetic at 0. -/
theorem C201_simplify_violated : IsDouble (1 / 2 - 2 ^ (-54 : ℤ)) ∧
    simplify [(1 / 2 - 2 ^ (-54 : ℤ), 0), (3, 0)] 1 = ([(1, 0), (3, 0)], none) ∧
    Coral.simplify [((1 : ℚ) / 2 - 2 ^ (-54 : ℤ), 0), (3, 0)] 1 = ([(0, 0), (3, 0)], none) := by
  refine ⟨⟨2 ^ 53 - 1, -54, by norm_num, by norm_num, by norm_num⟩, ?_, ?_⟩ <;> decide +kernel

/-- **C201**: the order of coordinates is kept. -/
theorem C201_monotone (x x' m : ℚ) (hm : 0 < m) (h : x ≤ x') : steps x m ≤ steps x' m := by
  have hz : IsDouble 0 := by simpa using double_int (n := 0) (by norm_num)
  have mono : ∀ y y' : ℚ, 0 ≤ y → y ≤ y' → nearest y ≤ nearest y' := by
    intro y y' h0 h
    rw [nearest_pos h0, nearest_pos (h0.trans h)]
    exact Int.floor_le_floor (fl_mono (by linarith))
  have pos : ∀ y : ℚ, 0 ≤ y → 0 ≤ nearest y := by
    intro y h0
    rw [nearest_pos h0]
    exact Int.floor_nonneg.mpr (le_fl hz (by linarith))
  have hf := fl_mono (div_le_div_of_nonneg_right h hm.le)
  rw [steps, steps]
  generalize fl (x / m) = y at *
  generalize fl (x' / m) = y' at *
  rcases le_or_gt 0 y with h0 | h0
  · exact mono y y' h0 hf
  · have n1 := nearest_neg_eq h0.ne
    have p1 := pos (-y) (by linarith)
    rcases le_or_gt 0 y' with h1 | h1
    · have := pos y' h1
      omega
    · have n2 := nearest_neg_eq h1.ne
      have := mono (-y') (-y) (by linarith) (by linarith)
      omega

/-- **C201**: grid points, as floats, stay where they are. -/
theorem C201_grid (i : ℤ) (m : ℚ) (hm : 2 ^ (-1000 : ℤ) ≤ m) (hi : |i| ≤ 2 ^ 50) : steps (fl (i * m)) m = i := by
  have hm0 : 0 < m := (two_zpow_pos _).trans_le hm
  have hq : |fl ((i : ℚ) * m) / m - i| ≤ 2 ^ (-2 : ℤ) := by
    have h1 := fl_error ((i : ℚ) * m)
    have e : fl ((i : ℚ) * m) / m - i = (fl ((i : ℚ) * m) - i * m) / m := by field_simp
    rw [e, abs_div, abs_of_pos hm0, div_le_iff₀ hm0]
    refine h1.trans ?_
    rw [abs_mul, abs_of_pos hm0]
    have hi' : |(i : ℚ)| ≤ 2 ^ 50 := by exact_mod_cast hi
    have h2 : |(i : ℚ)| * m * 2 ^ (-53 : ℤ) ≤ 2 ^ (-3 : ℤ) * m := by
      have : |(i : ℚ)| * 2 ^ (-53 : ℤ) ≤ 2 ^ 50 * 2 ^ (-53 : ℤ) := mul_le_mul_of_nonneg_right hi' (two_zpow_pos _).le
      have e5 : (2 : ℚ) ^ 50 * 2 ^ (-53 : ℤ) = 2 ^ (-3 : ℤ) := by norm_num
      rw [e5] at this
      calc _ = |(i : ℚ)| * 2 ^ (-53 : ℤ) * m := by ring
        _ ≤ _ := mul_le_mul_of_nonneg_right this hm0.le
    have h3 : (2 : ℚ) ^ (-1075 : ℤ) ≤ 2 ^ (-3 : ℤ) * m := by
      calc (2 : ℚ) ^ (-1075 : ℤ) ≤ 2 ^ (-1003 : ℤ) := zpow_le_zpow_right₀ (by norm_num) (by norm_num)
        _ = 2 ^ (-3 : ℤ) * 2 ^ (-1000 : ℤ) := by rw [← zpow_add₀ (by norm_num)]; norm_num
        _ ≤ _ := mul_le_mul_of_nonneg_left hm (two_zpow_pos _).le
    have e6 : (2 : ℚ) ^ (-2 : ℤ) * m = 2 ^ (-3 : ℤ) * m + 2 ^ (-3 : ℤ) * m := by norm_num; ring
    rw [e6]
    exact add_le_add h2 h3
  -- the quotient is rounded to a float that is as close
  have hb : |fl (fl ((i : ℚ) * m) / m) - i| ≤ 2 ^ (-2 : ℤ) := by
    rw [abs_le] at hq ⊢
    have hi2 := abs_le.mp hi
    have d1 : IsDouble ((i : ℚ) - 2 ^ (-2 : ℤ)) := by
      have := double_mk (m := 4 * i - 1) (e := -2) (by rw [abs_le]; constructor <;> norm_num <;> omega) (by norm_num)
      rw [show (i : ℚ) - 2 ^ (-2 : ℤ) = ((4 * i - 1 : ℤ) : ℚ) * 2 ^ (-2 : ℤ) by push_cast; norm_num; ring]
      exact this
    have d2 : IsDouble ((i : ℚ) + 2 ^ (-2 : ℤ)) := by
      have := double_mk (m := 4 * i + 1) (e := -2) (by rw [abs_le]; constructor <;> norm_num <;> omega) (by norm_num)
      rw [show (i : ℚ) + 2 ^ (-2 : ℤ) = ((4 * i + 1 : ℤ) : ℚ) * 2 ^ (-2 : ℤ) by push_cast; norm_num; ring]
      exact this
    have l1 := le_fl d1 (show (i : ℚ) - 2 ^ (-2 : ℤ) ≤ fl ((i : ℚ) * m) / m by linarith [hq.1])
    have l2 := fl_le d2 (show fl ((i : ℚ) * m) / m ≤ (i : ℚ) + 2 ^ (-2 : ℤ) by linarith [hq.2])
    constructor <;> linarith
  have hi' : |(i : ℚ)| ≤ 2 ^ 50 := by exact_mod_cast hi
  have hy : |fl (fl ((i : ℚ) * m) / m)| ≤ 2 ^ 52 := by
    have := abs_sub_abs_le_abs_sub (fl (fl ((i : ℚ) * m) / m)) (i : ℚ)
    norm_num at this hb hi' ⊢
    linarith
  have hn := nearest_double_error (fl_double _) hy
  rw [steps]
  generalize fl (fl ((i : ℚ) * m) / m) = y at *
  have hd := (abs_sub_le (nearest y : ℚ) y i).trans (add_le_add hn hb)
  have : |(nearest y : ℚ) - i| < 1 := hd.trans_lt (by norm_num)
  have : |nearest y - i| < 1 := by exact_mod_cast this
  rw [abs_lt] at this
  omega

/-- **C201, partial**: a coordinate that is not next to the middle between two grid lines gets the point that it gets in exact arithmetic. -/
theorem C201_exact_partial (x m : ℚ) (h : |x / m| ≤ 2 ^ 52) (hh : ∀ n : ℤ, (|x / m| + 1) * 2 ^ (-53 : ℤ) < |x / m - (n + 1 / 2)|) :
    steps x m = Coral.nearest (x / m) := by
  have h2 := fl_error (x / m)
  have h5 := fl_le_52 h
  have hd := fl_double (x / m)
  rw [steps]
  generalize x / m = q at *
  generalize fl q = y at *
  have e : (2 : ℚ) ^ (-54 : ℤ) + 2 ^ (-1075 : ℤ) ≤ 2 ^ (-53 : ℤ) := by
    have : (2 : ℚ) ^ (-1075 : ℤ) ≤ 2 ^ (-54 : ℤ) := zpow_le_zpow_right₀ (by norm_num) (by norm_num)
    have e2 : (2 : ℚ) ^ (-53 : ℤ) = 2 * 2 ^ (-54 : ℤ) := by rw [show (-53 : ℤ) = 1 + -54 by norm_num, zpow_add₀ (by norm_num)]; norm_num
    linarith
  have e0 : (0 : ℚ) < 2 ^ (-54 : ℤ) := two_zpow_pos _
  have hn := nearest_double_error hd h5
  have hq := abs_le.mp (nearest_abs q)
  have g1 := hh (Coral.nearest q)
  have g2 := hh (Coral.nearest q - 1)
  push_cast at g2
  rw [abs_sub_comm q, abs_of_nonneg (show 0 ≤ (Coral.nearest q : ℚ) + 1 / 2 - q by linarith [hq.1])] at g1
  rw [abs_of_nonneg (show 0 ≤ q - ((Coral.nearest q : ℚ) - 1 + 1 / 2) by linarith [hq.2])] at g2
  rw [abs_le] at h2 hn
  have b1 : (y : ℚ) - Coral.nearest q < 1 / 2 - 2 ^ (-54 : ℤ) := by
    generalize (2 : ℚ) ^ (-53 : ℤ) = u at *
    generalize (2 : ℚ) ^ (-54 : ℤ) = v at *
    generalize (2 : ℚ) ^ (-1075 : ℤ) = t at *
    linarith [h2.2]
  have b2 : -(1 / 2 - 2 ^ (-54 : ℤ)) < (y : ℚ) - Coral.nearest q := by
    generalize (2 : ℚ) ^ (-53 : ℤ) = u at *
    generalize (2 : ℚ) ^ (-54 : ℤ) = v at *
    generalize (2 : ℚ) ^ (-1075 : ℤ) = t at *
    linarith [h2.1]
  have c1 : (nearest y : ℚ) < Coral.nearest q + 1 := by linarith [hn.2]
  have c2 : (Coral.nearest q : ℚ) - 1 < nearest y := by linarith [hn.1]
  have c1' : nearest y < Coral.nearest q + 1 := by exact_mod_cast c1
  have c2' : Coral.nearest q - 1 < nearest y := by exact_mod_cast c2
  omega

/-- **C201, partial**: a polyline without such coordinates is simplified as in exact arithmetic, so what was proved for that (C11, C12, C13) holds. -/
theorem C201_simplify_partial (xys : List (ℚ × ℚ)) (m : ℚ) (closed : Bool) (k : Nat)
    (h : ∀ p ∈ xys, ∀ x ∈ [p.1, p.2], |x / m| ≤ 2 ^ 52 ∧ ∀ n : ℤ, (|x / m| + 1) * 2 ^ (-53 : ℤ) < |x / m - (n + 1 / 2)|) :
    simplify xys m closed k = Coral.simplify xys m closed k := by
  have key : sqrFit m xys = Coral.sqrFit m xys := by
    induction xys with
    | nil => rfl
    | cons p s ih =>
      obtain ⟨x, y⟩ := p
      have ih := ih (fun p hp => h p (by simp [hp]))
      have hx := h (x, y) (by simp) x (by simp)
      have hy := h (x, y) (by simp) y (by simp)
      have ex := C201_exact_partial x m hx.1 hx.2
      have ey := C201_exact_partial y m hy.1 hy.2
      rw [steps] at ex ey
      rw [sqrFit, Coral.sqrFit, ih, ex, ey]
  rw [simplify, Coral.simplify, key]

/-- A third of a step is far from the middle. -/
example : steps 1 3 = Coral.nearest ((1 : ℚ) / 3) := by
  refine C201_exact_partial 1 3 (by norm_num [abs_of_pos]) fun n => ?_
  have : (1 : ℚ) / 6 ≤ |1 / 3 - ((n : ℚ) + 1 / 2)| := by
    rcases le_or_gt 0 n with h | h
    · have : (0 : ℚ) ≤ n := by exact_mod_cast h
      rw [abs_sub_comm]
      exact le_trans (by linarith) (le_abs_self _)
    · have : (n : ℚ) ≤ -1 := by exact_mod_cast (show n ≤ -1 by omega)
      exact le_trans (by linarith) (le_abs_self _)
  refine lt_of_lt_of_le ?_ this
  norm_num [abs_of_pos]

end Flt
end Coral
