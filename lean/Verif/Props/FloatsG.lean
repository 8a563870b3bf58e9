import Verif.Model.FloatsD
import Verif.Props.Floats
import Verif.Props.FloatsC

/-!
# Grid cells on floats (C167)
-/
namespace Coral
namespace Flt

/-- The computed quotient of a multiple is close to the multiplier. -/
theorem quotient_close {w : ℚ} (hw : IsDouble w) (h0 : w ≠ 0) {q : ℤ} (hq : |(q : ℚ)| ≤ 2 ^ 49) : |fl (fl (w * q) / w) - q| ≤ 13 / 100 := by
  by_cases hq0 : q = 0
  · rw [hq0, Int.cast_zero, mul_zero, fl_id double_zero, zero_div, fl_id double_zero]
    norm_num
  · obtain ⟨δ, hδ, e⟩ := grid_factor rfl (grid_mul (grid_of_double hw) q)
    have e1 : fl (w * q) / w = q * (1 + δ) := by
      rw [e]
      field_simp
    rw [e1]
    have h1 := fl_error ((q : ℚ) * (1 + δ))
    have hu : (2 : ℚ) ^ (-53 : ℤ) ≤ 1 / 2 ^ 53 := by norm_num
    have hη : (2 : ℚ) ^ (-1075 : ℤ) ≤ 1 / 2 ^ 53 := le_trans (zpow_le_zpow_right₀ (by norm_num) (by norm_num : (-1075 : ℤ) ≤ -53)) hu
    generalize (2 : ℚ) ^ (-53 : ℤ) = u at *
    generalize (2 : ℚ) ^ (-1075 : ℤ) = η at *
    have hu' : |δ| ≤ 1 / 2 ^ 53 := hδ.trans hu
    have h2 : |(q : ℚ) * δ| ≤ 2 ^ 49 * (1 / 2 ^ 53) := by
      rw [abs_mul]
      exact mul_le_mul hq hu' (abs_nonneg _) (by norm_num)
    have h3 : |(q : ℚ) * (1 + δ)| ≤ 2 ^ 49 + 1 := by
      rw [mul_add, mul_one]
      refine le_trans (abs_add_le _ _) (add_le_add hq (h2.trans ?_))
      norm_num
    have h4 : |(q : ℚ) * (1 + δ)| * u ≤ (2 ^ 49 + 1) * (1 / 2 ^ 53) := by
      have u0 : 0 ≤ u := le_trans (abs_nonneg δ) hδ
      exact mul_le_mul h3 hu u0 (by norm_num)
    rw [show fl ((q : ℚ) * (1 + δ)) - q = (fl ((q : ℚ) * (1 + δ)) - q * (1 + δ)) + q * δ by ring]
    refine le_trans (abs_add_le _ _) (le_trans (add_le_add (h1.trans (add_le_add h4 hη)) h2) ?_)
    norm_num

/-- Moving to the nearest integer. -/
theorem snap {d : ℚ} {n : ℤ} (hn : |n| ≤ 2 ^ 53) (h : |d - n| ≤ 1 / 4) :
    (if fl (d - (⌊d⌋ : ℚ)) > 1 / 2 then fl ((⌊d⌋ : ℚ) + 1) else (⌊d⌋ : ℚ)) = n := by
  have dh : IsDouble (1 / 2) := ⟨1, -1, by norm_num, by norm_num, by norm_num⟩
  have dq : IsDouble (3 / 4) := ⟨3, -2, by norm_num, by norm_num, by norm_num⟩
  rw [abs_le] at h
  rcases le_or_gt (n : ℚ) d with hd | hd
  · have e : ⌊d⌋ = n := Int.floor_eq_iff.mpr ⟨hd, by linarith⟩
    rw [e, if_neg (not_lt.mpr (fl_le dh (by linarith)))]
  · have e : ⌊d⌋ = n - 1 := Int.floor_eq_iff.mpr ⟨by push_cast; linarith, by push_cast; linarith⟩
    have : 3 / 4 ≤ fl (d - ((n - 1 : ℤ) : ℚ)) := le_fl dq (by push_cast; linarith)
    rw [e, if_pos (by linarith)]
    push_cast
    rw [sub_add_cancel, fl_id (double_int hn)]

/-- `v // w` is the exact floor of the exact quotient, up to 2⁴⁹. -/
theorem floordiv_exact {v w : ℚ} (hw : IsDouble w) (h0 : 0 < w) (hq : |v / w| ≤ 2 ^ 49) : floordiv v w = (⌊v / w⌋ : ℤ) := by
  have key : ∀ q : ℤ, |(q : ℚ)| ≤ 2 ^ 49 → |fl (fl (w * q) / w) - q| ≤ 13 / 100 := fun q h => quotient_close hw h0.ne' h
  rw [floordiv]
  simp only [sub_sub_cancel]
  have hb := abs_le.mp hq
  rcases le_or_gt 0 (v / w) with hs | hs
  · have ht : pyTrunc (v / w) = ⌊v / w⌋ := trunc_floor hs
    have f1 := Int.floor_le (v / w)
    have f0 : 0 ≤ ⌊v / w⌋ := Int.floor_nonneg.mpr hs
    have f0' : (0 : ℚ) ≤ ⌊v / w⌋ := by exact_mod_cast f0
    have f2 : |(⌊v / w⌋ : ℚ)| ≤ 2 ^ 49 := by rw [abs_of_nonneg f0']; linarith
    have hm : ¬ v - w * (⌊v / w⌋ : ℚ) < 0 := by
      rw [not_lt, sub_nonneg]
      rw [le_div_iff₀ h0] at f1
      linarith
    have hc : ¬ (v - w * (⌊v / w⌋ : ℚ) ≠ 0 ∧ ¬ (w < 0 ↔ v - w * (⌊v / w⌋ : ℚ) < 0)) := by
      rintro ⟨-, h⟩
      exact h ⟨fun h => absurd h (not_lt.mpr h0.le), fun h => absurd h hm⟩
    rw [ht, if_neg hc]
    refine snap ?_ (le_trans (key _ f2) (by norm_num))
    have : |⌊v / w⌋| ≤ 2 ^ 49 := by exact_mod_cast f2
    exact this.trans (by norm_num)
  · have ht : pyTrunc (v / w) = ⌈v / w⌉ := by rw [pyTrunc, if_neg (not_le.mpr hs)]
    have f1 := Int.le_ceil (v / w)
    have f0 : ⌈v / w⌉ ≤ 0 := Int.ceil_le.mpr (by push_cast; exact hs.le)
    have f0' : (⌈v / w⌉ : ℚ) ≤ 0 := by exact_mod_cast f0
    have f2 : |(⌈v / w⌉ : ℚ)| ≤ 2 ^ 49 := by rw [abs_of_nonpos f0']; linarith
    have f3 : |⌈v / w⌉| ≤ 2 ^ 49 := by exact_mod_cast f2
    have k := key _ f2
    rw [ht]
    by_cases hi : v / w = (⌈v / w⌉ : ℚ)
    · have hm : v - w * (⌈v / w⌉ : ℚ) = 0 := by
        rw [← hi]
        field_simp
        ring
      have e : ⌊v / w⌋ = ⌈v / w⌉ := by rw [hi, Int.floor_intCast, Int.ceil_intCast]
      have hc : ¬ (v - w * (⌈v / w⌉ : ℚ) ≠ 0 ∧ ¬ (w < 0 ↔ v - w * (⌈v / w⌉ : ℚ) < 0)) := fun h => h.1 hm
      rw [if_neg hc, e]
      exact snap (f3.trans (by norm_num)) (k.trans (by norm_num))
    · have hlt : v / w < (⌈v / w⌉ : ℚ) := lt_of_le_of_ne f1 hi
      have hm : v - w * (⌈v / w⌉ : ℚ) < 0 := by
        rw [div_lt_iff₀ h0] at hlt
        linarith
      have e : ⌊v / w⌋ = ⌈v / w⌉ - 1 := by
        have := Int.ceil_lt_add_one (v / w)
        exact Int.floor_eq_iff.mpr ⟨by push_cast; linarith, by push_cast; linarith⟩
      have hc : v - w * (⌈v / w⌉ : ℚ) ≠ 0 ∧ ¬ (w < 0 ↔ v - w * (⌈v / w⌉ : ℚ) < 0) := ⟨hm.ne, fun h => absurd (h.mpr hm) (not_lt.mpr h0.le)⟩
      rw [if_pos hc, e]
      have hf4 := abs_le.mp f3
      refine snap (abs_le.mpr ⟨by omega, by omega⟩) ?_
      generalize fl (fl (w * (⌈v / w⌉ : ℚ)) / w) = d at *
      have er := fl_error (d - 1)
      have hu : (2 : ℚ) ^ (-53 : ℤ) ≤ 1 / 2 ^ 53 := by norm_num
      have hη : (2 : ℚ) ^ (-1075 : ℤ) ≤ 1 / 2 ^ 53 := le_trans (zpow_le_zpow_right₀ (by norm_num) (by norm_num : (-1075 : ℤ) ≤ -53)) hu
      have u0 := (two_zpow_pos (-53)).le
      generalize (2 : ℚ) ^ (-53 : ℤ) = u at *
      generalize (2 : ℚ) ^ (-1075 : ℤ) = η at *
      rw [abs_le] at k f2
      have h1 : |d - 1| ≤ 2 ^ 49 + 2 := abs_le.mpr ⟨by linarith, by linarith⟩
      have h2 : |d - 1| * u ≤ (2 ^ 49 + 2) * (1 / 2 ^ 53) := mul_le_mul h1 hu u0 (by norm_num)
      have h3 : |fl (d - 1) - (d - 1)| ≤ 7 / 100 := er.trans (le_trans (add_le_add h2 hη) (by norm_num))
      rw [abs_le] at h3 ⊢
      push_cast
      constructor <;> linarith

/-! ### C167 -/

/-- C167: `Frame.point` puts a projected point into the cell of the grid where it is, without rounding errors, if the point is not more than 2⁴⁹ cells away. -/
theorem C167_cell (geo2rect : ℚ → ℚ → Py (ℚ × ℚ)) (scale : ℚ) (hd : IsDouble scale) (hs : 0 < scale) (p : ℚ × ℚ) {x y : ℚ}
    (h : geo2rect p.1 p.2 = .ok (x, y)) (hx : |x / scale| ≤ 2 ^ 49) (hy : |y / scale| ≤ 2 ^ 49) :
    ∃ i j : Int, point geo2rect scale p = .ok ((i : ℚ), (j : ℚ)) ∧ (i * scale ≤ x ∧ x < (i + 1) * scale) ∧ (j * scale ≤ y ∧ y < (j + 1) * scale) := by
  have key : ∀ t : ℚ, (⌊t / scale⌋ : ℚ) * scale ≤ t ∧ t < (⌊t / scale⌋ + 1) * scale := by
    intro t
    exact ⟨(le_div_iff₀ hs).mp (Int.floor_le _), (div_lt_iff₀ hs).mp (Int.lt_floor_add_one _)⟩
  refine ⟨⌊x / scale⌋, ⌊y / scale⌋, ?_, key x, key y⟩
  rw [point, h, ← floordiv_exact hd hs hx, ← floordiv_exact hd hs hy]
  simp only [bind, Except.bind, if_neg hs.ne']
  rfl

/-- C167: it is the point of exact arithmetic (C31). -/
theorem C167_same_point (geo2rect : ℚ → ℚ → Py (ℚ × ℚ)) (scale : ℚ) (hd : IsDouble scale) (hs : 0 < scale) (p : ℚ × ℚ)
    (h : ∀ x y, geo2rect p.1 p.2 = .ok (x, y) → |x / scale| ≤ 2 ^ 49 ∧ |y / scale| ≤ 2 ^ 49) : point geo2rect scale p = Frame.point geo2rect scale p := by
  rw [point, Frame.point]
  cases hg : geo2rect p.1 p.2 with
  | error e => rfl
  | ok q =>
    obtain ⟨x, y⟩ := q
    obtain ⟨hx, hy⟩ := h x y hg
    simp only [bind, Except.bind, if_neg hs.ne', Frame.floorDiv, floordiv_exact hd hs hx, floordiv_exact hd hs hy]

theorem nearest_close {t : ℚ} (ht : IsDouble t) (h : |t| ≤ 2 ^ 50) : |(nearest t : ℚ) - t| ≤ 1 / 2 + 2 ^ (-54 : ℤ) := by
  by_cases hm : Misrounded t
  · rcases hm with hm | ⟨n, hn, -, h1, -⟩
    · have e : (nearest (1 / 2 - 2 ^ (-54 : ℤ)) : ℚ) = 1 := by
        rw [show nearest (1 / 2 - 2 ^ (-54 : ℤ)) = 1 by decide +kernel]
        rfl
      rcases abs_eq (by norm_num : (0 : ℚ) ≤ 1 / 2 - 2 ^ (-54 : ℤ)) |>.mp hm with rfl | rfl
      · rw [e]
        norm_num
      · rw [nearest_neg_eq (by norm_num)]
        push_cast
        rw [e]
        norm_num
    · exfalso
      rw [hn] at h
      have : |n| ≤ 2 ^ 50 := by exact_mod_cast h
      omega
  · exact (C152_nearest_double_partial t ht hm).2.1.trans (by linarith [two_zpow_pos (-54)])

theorem fit_one {m x : ℚ} (hs : 0 < m) (hx : |x / m| ≤ 2 ^ 49) : |(nearest (fl (x / m)) : ℚ) * m - x| ≤ m / 2 + (|x| + m) * 2 ^ (-53 : ℤ) := by
  have e1 := fl_error (x / m)
  have e2 : |fl (x / m)| ≤ 2 ^ 50 := by
    have h1 := abs_le.mp hx
    have d : IsDouble (2 ^ 50) := ⟨1, 50, by norm_num, by norm_num, by norm_num⟩
    exact abs_le.mpr ⟨le_fl (double_neg d) (by linarith), fl_le d (by linarith)⟩
  have e3 := nearest_close (fl_double _) e2
  generalize nearest (fl (x / m)) = n at *
  generalize fl (x / m) = t at *
  have hη : (2 : ℚ) ^ (-1075 : ℤ) ≤ 2 ^ (-54 : ℤ) := zpow_le_zpow_right₀ (by norm_num) (by norm_num)
  have h2 : (2 : ℚ) ^ (-54 : ℤ) + 2 ^ (-54 : ℤ) = 2 ^ (-53 : ℤ) := by norm_num
  have h3 : |(n : ℚ) - x / m| ≤ 1 / 2 + (|x / m| + 1) * 2 ^ (-53 : ℤ) := by
    generalize (2 : ℚ) ^ (-1075 : ℤ) = η at *
    generalize (2 : ℚ) ^ (-54 : ℤ) = z at *
    generalize (2 : ℚ) ^ (-53 : ℤ) = u at *
    rw [show (n : ℚ) - x / m = (n - t) + (t - x / m) by ring]
    refine le_trans (abs_add_le _ _) (le_trans (add_le_add e3 e1) ?_)
    linarith
  rw [show (n : ℚ) * m - x = (n - x / m) * m by field_simp, abs_mul, abs_of_pos hs]
  refine le_trans (mul_le_mul_of_nonneg_right h3 hs.le) (le_of_eq ?_)
  rw [abs_div, abs_of_pos hs]
  field_simp

/-- C167: `sqr_fit` (the first step of `simplify` and `planify`) takes every point to a node of the grid which is at most half a cell and a rounding error away, in
order, one node for each point. -/
theorem C167_fit (m : ℚ) (hs : 0 < m) (ps : List (ℚ × ℚ)) (h : ∀ p ∈ ps, |p.1 / m| ≤ 2 ^ 49 ∧ |p.2 / m| ≤ 2 ^ 49) :
    (sqrFit m ps).2 = none ∧ List.Forall₂ (fun p (n : Int × Int) => |(n.1 : ℚ) * m - p.1| ≤ m / 2 + (|p.1| + m) * 2 ^ (-53 : ℤ) ∧
      |(n.2 : ℚ) * m - p.2| ≤ m / 2 + (|p.2| + m) * 2 ^ (-53 : ℤ)) ps (sqrFit m ps).1 := by
  induction ps with
  | nil => exact ⟨rfl, .nil⟩
  | cons p ps ih =>
    obtain ⟨i1, i2⟩ := ih (fun q hq => h q (by simp [hq]))
    obtain ⟨h1, h2⟩ := h p (by simp)
    obtain ⟨x, y⟩ := p
    rw [sqrFit, if_neg hs.ne']
    exact ⟨i1, .cons ⟨fit_one hs h1, fit_one hs h2⟩ i2⟩

/-- C167: points that are on the grid stay there. -/
theorem C167_fit_exact (m : ℚ) (hs : 0 < m) (i j : Int) (hi : |i| < 2 ^ 49) (hj : |j| < 2 ^ 49) : sqrFit m [((i : ℚ) * m, (j : ℚ) * m)] = ([(i, j)], none) := by
  have key : ∀ k : ℤ, |k| < 2 ^ 49 → nearest (fl ((k : ℚ) * m / m)) = k := by
    intro k hk
    rw [mul_div_cancel_right₀ _ hs.ne', fl_id (double_int (hk.le.trans (by norm_num)))]
    have h := nearest_close (t := (k : ℚ)) (double_int (hk.le.trans (by norm_num))) (by exact_mod_cast (hk.le.trans (by norm_num)))
    have h2 : |(nearest (k : ℚ) : ℚ) - k| < 1 := lt_of_le_of_lt h (by norm_num)
    have h3 : |nearest (k : ℚ) - k| < 1 := by exact_mod_cast h2
    have := abs_lt.mp h3
    omega
  rw [sqrFit, if_neg hs.ne', key i hi, key j hj]
  rfl

/-- A case: 1 is in the ninth of the cells with the width of the float 0.1 (which is a little above a tenth), though the rounded quotient is 10. -/
example : fl (1 / fl (1 / 10)) = 10 ∧ point (fun x y => .ok (x, y)) (fl (1 / 10)) (1, -1) = .ok (9, -10) ∧ sqrFit (fl (1 / 10)) [(1, 1 / 4)] = ([(10, 3)], none) := by
  decide +kernel

end Flt
end Coral
