import Verif.Props.FloatsB
import Verif.Proofs.Grid

/-!
# Properties C158-C160: real variables of grids, coordinates of P files and wrapping, on floats
-/
namespace Coral
namespace Flt

/-! ### Relative errors -/

/-- A multiple of the smallest positive float. -/
def OnGrid (x : ℚ) : Prop := ∃ n : ℤ, x = n * 2 ^ (-1074 : ℤ)

theorem grid_of_double {x : ℚ} (h : IsDouble x) : OnGrid x := by
  obtain ⟨m, e, hm, he, hx⟩ := h
  exact double_grid hm hx (E := -1074) (Or.inl he)

theorem grid_sub {x y : ℚ} (hx : OnGrid x) (hy : OnGrid y) : OnGrid (x - y) := by
  obtain ⟨n, rfl⟩ := hx
  obtain ⟨m, rfl⟩ := hy
  exact ⟨n - m, by push_cast; ring⟩

theorem grid_add {x y : ℚ} (hx : OnGrid x) (hy : OnGrid y) : OnGrid (x + y) := by
  obtain ⟨n, rfl⟩ := hx
  obtain ⟨m, rfl⟩ := hy
  exact ⟨n + m, by push_cast; ring⟩

theorem grid_mul {x : ℚ} (hx : OnGrid x) (k : ℤ) : OnGrid (x * k) := by
  obtain ⟨n, rfl⟩ := hx
  exact ⟨n * k, by push_cast; ring⟩

theorem grid_int (k : ℤ) : OnGrid k := ⟨k * 2 ^ 1074, by
  rw [zpow_neg, show (1074 : ℤ) = ((1074 : ℕ) : ℤ) from rfl, zpow_natCast]
  push_cast
  rw [mul_assoc, mul_inv_cancel₀ (by positivity), mul_one]⟩

/-- Rounding such a multiple has a relative error, however small it is. -/
theorem grid_error {z : ℚ} (h : OnGrid z) : |fl z - z| ≤ |z| * 2 ^ (-53 : ℤ) := by
  obtain ⟨n, hz⟩ := h
  by_cases h0 : z = 0
  · rw [h0, fl_id double_zero]; simp
  by_cases hE : expOf z = -1074
  · have := fl_grid z n
    rw [hE, ← hz, sub_self, abs_zero] at this
    exact le_trans this (mul_nonneg (abs_nonneg _) (two_zpow_pos _).le)
  · have h1 := exp_le_abs h0 hE
    have h2 := fl_grid z (pyRound (z / 2 ^ expOf z))
    have h3 : |((pyRound (z / 2 ^ expOf z) : ℤ) : ℚ) * 2 ^ expOf z - z| ≤ 2 ^ expOf z / 2 := by
      have hp := two_zpow_pos (expOf z)
      have h4 := pyRound_abs (z / 2 ^ expOf z)
      have h5 : ((pyRound (z / 2 ^ expOf z) : ℤ) : ℚ) * 2 ^ expOf z - z = ((pyRound (z / 2 ^ expOf z) : ℚ) - z / 2 ^ expOf z) * 2 ^ expOf z := by
        field_simp
      rw [h5, abs_mul, abs_of_pos hp]
      have := mul_le_mul_of_nonneg_right h4 hp.le
      linarith
    have h6 : (2 : ℚ) ^ expOf z / 2 = 2 ^ (expOf z + 52) * 2 ^ (-53 : ℤ) := by
      rw [← zpow_add₀ (by norm_num), show expOf z + 52 + -53 = expOf z + -1 by ring, zpow_add₀ (by norm_num)]
      norm_num
      ring
    rw [h6] at h3
    exact le_trans h2 (le_trans h3 (mul_le_mul_of_nonneg_right h1 (two_zpow_pos _).le))

/-- The same as a factor close to one. -/
theorem grid_factor {u z : ℚ} (hu : u = 2 ^ (-53 : ℤ)) (h : OnGrid z) : ∃ δ, |δ| ≤ u ∧ fl z = z * (1 + δ) := by
  have e := grid_error h
  rw [← hu] at e
  have u0 : 0 < u := by rw [hu]; exact two_zpow_pos _
  by_cases h0 : z = 0
  · exact ⟨0, by simpa using u0.le, by rw [h0, fl_id double_zero]; ring⟩
  · refine ⟨(fl z - z) / z, ?_, by field_simp; ring⟩
    rw [abs_div, div_le_iff₀ (abs_pos.mpr h0)]
    linarith

/-- Integers round to integers. -/
theorem fl_int (n : ℤ) : ∃ m : ℤ, fl n = m := by
  by_cases h : |n| ≤ 2 ^ 53
  · exact ⟨n, fl_id (double_int h)⟩
  · push Not at h
    have hz : (n : ℚ) ≠ 0 := by
      intro h0
      rw [Int.cast_eq_zero] at h0
      rw [h0] at h
      norm_num at h
    have h1 : 0 ≤ expOf (n : ℚ) := by
      have h2 := abs_lt_exp (n : ℚ)
      by_contra hc
      push Not at hc
      have h3 : (2 : ℚ) ^ (expOf (n : ℚ) + 53) ≤ 2 ^ (53 : ℤ) := zpow_le_zpow_right₀ (by norm_num) (by omega)
      have h4 : ((2 ^ 53 : ℤ) : ℚ) < |(n : ℚ)| := by rw [← Int.cast_abs]; exact_mod_cast h
      have h5 : ((2 ^ 53 : ℤ) : ℚ) = 2 ^ (53 : ℤ) := by norm_num
      linarith
    obtain ⟨k, hk⟩ := Int.eq_ofNat_of_zero_le h1
    refine ⟨pyRound ((n : ℚ) / 2 ^ expOf (n : ℚ)) * 2 ^ k, ?_⟩
    rw [fl, hk]
    push_cast
    rfl

/-- Four factors. -/
theorem factors {u a b c d : ℚ} (hu : 0 < u) (hu1 : u ≤ 1 / 1000) (ha : |a| ≤ u) (hb : |b| ≤ u) (hc : |c| ≤ u) (hd : |d| ≤ u) :
    |(1 + a) * (1 + b) * (1 + c) / (1 + d) - 1| ≤ 5 * u := by
  obtain ⟨a1, a2⟩ := abs_le.mp ha
  obtain ⟨b1, b2⟩ := abs_le.mp hb
  obtain ⟨c1, c2⟩ := abs_le.mp hc
  obtain ⟨d1, d2⟩ := abs_le.mp hd
  have hd0 : 0 < 1 + d := by linarith
  have uu : u * u ≤ u * (1 / 1000) := mul_le_mul_of_nonneg_left hu1 hu.le
  have p1 : (1 + a) * (1 + b) ≤ (1 + u) * (1 + u) := mul_le_mul (by linarith) (by linarith) (by linarith) (by linarith)
  have p2 : (1 + a) * (1 + b) * (1 + c) ≤ (1 + u) * (1 + u) * (1 + u) := mul_le_mul p1 (by linarith) (by linarith) (by positivity)
  have q1 : (1 - u) * (1 - u) ≤ (1 + a) * (1 + b) := mul_le_mul (by linarith) (by linarith) (by linarith) (by linarith)
  have q2 : (1 - u) * (1 - u) * (1 - u) ≤ (1 + a) * (1 + b) * (1 + c) :=
    mul_le_mul q1 (by linarith) (by linarith) (mul_nonneg (by linarith) (by linarith))
  have uuu : u * u * u ≤ u * u * (1 / 1000) := mul_le_mul_of_nonneg_left hu1 (by positivity)
  have uuu0 : 0 ≤ u * u * u := by positivity
  rw [abs_le]
  constructor
  · have : 1 - 5 * u ≤ (1 + a) * (1 + b) * (1 + c) / (1 + d) := by
      rw [le_div_iff₀ hd0]
      have h1 : (1 - 5 * u) * (1 + d) ≤ (1 - 5 * u) * (1 + u) := mul_le_mul_of_nonneg_left (by linarith) (by linarith)
      nlinarith
    linarith
  · have : (1 + a) * (1 + b) * (1 + c) / (1 + d) ≤ 1 + 5 * u := by
      rw [div_le_iff₀ hd0]
      have h1 : (1 + 5 * u) * (1 - u) ≤ (1 + 5 * u) * (1 + d) := mul_le_mul_of_nonneg_left (by linarith) (by linarith)
      nlinarith
    linarith

/-- A product of a float and an integer, divided by a float: all rounded, compared with the exact quotient. -/
theorem scaled_close {u η A D S : ℚ} {a b c d w : ℚ} (hu : u = 2 ^ (-53 : ℤ)) (hη : η = 2 ^ (-1075 : ℤ)) (ha : |a| ≤ u) (hb : |b| ≤ u)
    (hc : |c| ≤ u) (hd : |d| ≤ u) (hD : 0 < D)
    (hw : w = fl (A * (1 + a) * (S * (1 + b)) * (1 + c) / (D * (1 + d)))) : |w - A * S / D| ≤ 7 * u * |A * S / D| + η := by
  have u0 : 0 < u := by rw [hu]; exact two_zpow_pos _
  have u1 : u ≤ 1 / 1000 := by rw [hu]; norm_num
  have hF := factors u0 u1 ha hb hc hd
  have e : A * (1 + a) * (S * (1 + b)) * (1 + c) / (D * (1 + d)) = A * S / D * ((1 + a) * (1 + b) * (1 + c) / (1 + d)) := by
    have : 1 + d ≠ 0 := by have := (abs_le.mp hd).1; intro h; linarith
    field_simp
  rw [e] at hw
  generalize A * S / D = T at *
  generalize (1 + a) * (1 + b) * (1 + c) / (1 + d) = F at *
  have hT := abs_nonneg T
  have h1 : |T * F - T| ≤ |T| * (5 * u) := by
    rw [show T * F - T = T * (F - 1) by ring, abs_mul]
    exact mul_le_mul_of_nonneg_left hF hT
  have h2 := fl_close (x := T * F) hu hη
  rw [← hw] at h2
  have h3 : |T * F| ≤ |T| * (1 + 5 * u) := by
    rw [abs_mul]
    refine mul_le_mul_of_nonneg_left ?_ hT
    obtain ⟨f1, f2⟩ := abs_le.mp hF
    rw [abs_le]; constructor <;> linarith
  have h4 : |T * F| * u ≤ |T| * (1 + 5 * u) * u := mul_le_mul_of_nonneg_right h3 u0.le
  have h5 : |T| * (1 + 5 * u) * u ≤ |T| * (2 * u) := by
    have : (1 + 5 * u) * u ≤ 2 * u := mul_le_mul_of_nonneg_right (by linarith) u0.le
    have := mul_le_mul_of_nonneg_left this hT
    linarith
  have h6 := abs_sub_le w (T * F) T
  linarith

/-! ### C158 -/

theorem fvarInit_ok {minv maxv : ℚ} {size : Nat} {nullable : Bool} {v : FVar ℚ} (h : fvarInit minv maxv size nullable = .ok v) :
    minv < maxv ∧ v.minv = minv ∧ v.maxv = maxv ∧ v.delta = fl (maxv - minv) ∧ v.span = 256 ^ size - b2i nullable ∧ 0 < v.span ∧
      v.nullable = nullable ∧ v.size = size := by
  simp only [fvarInit, Py.bind_ok] at h
  obtain ⟨w, hw, h⟩ := h
  obtain ⟨h1, h2, rfl⟩ := FVar.init_ok hw
  injection h with h
  rw [← h]
  exact ⟨h1, rfl, rfl, rfl, rfl, FVar.span_pos h2 nullable, rfl, rfl⟩

/-- The integer that stands for a number, before it is cut at the last one. -/
theorem index_close {minv maxv x : ℚ} (h0 : IsDouble minv) (h1 : IsDouble maxv) (hx : IsDouble x) (hlt : minv < maxv)
    (S : ℤ) {u η : ℚ} (hu : u = 2 ^ (-53 : ℤ)) (hη : η = 2 ^ (-1075 : ℤ)) :
    |fl (fl (fl (x - minv) * fl S) / fl (maxv - minv)) - (x - minv) * S / (maxv - minv)| ≤ 7 * u * |(x - minv) * S / (maxv - minv)| + η := by
  have gA := grid_sub (grid_of_double hx) (grid_of_double h0)
  obtain ⟨a, ha, ea⟩ := grid_factor hu gA
  obtain ⟨b, hb, eb⟩ := grid_factor hu (grid_int S)
  obtain ⟨m, hm⟩ := fl_int S
  obtain ⟨c, hc, ec⟩ := grid_factor hu (z := fl (x - minv) * fl S) (by rw [hm]; exact grid_mul (grid_of_double (fl_double _)) m)
  obtain ⟨d, hd, ed⟩ := grid_factor hu (grid_sub (grid_of_double h1) (grid_of_double h0))
  refine scaled_close hu hη ha hb hc hd (by linarith) ?_
  rw [ec, ea, eb, ed]

/-- The part above the minimum of the number that an integer stands for. -/
theorem value_close {minv maxv : ℚ} (h0 : IsDouble minv) (h1 : IsDouble maxv) (hlt : minv < maxv)
    (S i : ℤ) (hS : 0 < S) (hi : 0 ≤ i) {u η : ℚ} (hu : u = 2 ^ (-53 : ℤ)) (hη : η = 2 ^ (-1075 : ℤ)) :
    |fl (fl (fl i * fl (maxv - minv)) / fl S) - i * (maxv - minv) / S| ≤ 7 * u * (i * (maxv - minv) / S) + η := by
  obtain ⟨a, ha, ea⟩ := grid_factor hu (grid_sub (grid_of_double h1) (grid_of_double h0))
  obtain ⟨b, hb, eb⟩ := grid_factor hu (grid_int i)
  obtain ⟨m, hm⟩ := fl_int i
  obtain ⟨c, hc, ec⟩ := grid_factor hu (z := fl i * fl (maxv - minv)) (by
    rw [hm, mul_comm]; exact grid_mul (grid_of_double (fl_double _)) m)
  obtain ⟨d, hd, ed⟩ := grid_factor hu (grid_int S)
  have hSq : (0 : ℚ) < S := by exact_mod_cast hS
  have hiq : (0 : ℚ) ≤ i := by exact_mod_cast hi
  rw [mul_comm (i : ℚ)]
  have h0 : 0 ≤ (maxv - minv) * i / S := by
    have : 0 < maxv - minv := by linarith
    positivity
  conv_rhs => rw [← abs_of_nonneg h0]
  refine scaled_close hu hη ha hb hc hd hSq ?_
  rw [ec, ea, eb, ed]
  congr 1
  ring

theorem fvarIndex_eq {minv maxv : ℚ} {size : Nat} {nullable : Bool} {v : FVar ℚ} (h : fvarInit minv maxv size nullable = .ok v)
    (h0 : IsDouble minv) (h1 : IsDouble maxv) {x : ℚ} (hx0 : minv ≤ x) (hx1 : x ≤ maxv) :
    fvarIndex v x = .ok (min (pyRound (fl (fl (fl (x - minv) * fl v.span) / fl (maxv - minv)))) v.span) := by
  obtain ⟨hlt, e0, e1, ed, -, -, -, -⟩ := fvarInit_ok h
  have hne : fl (maxv - minv) ≠ 0 := by
    intro hz
    rw [C154_sides_do_not_vanish minv maxv h0 h1] at hz
    exact absurd hz hlt.ne
  simp only [fvarIndex, e0, e1, ed, hx0, hx1, decide_true, Bool.and_self, pyAssert, div, if_neg hne]
  rfl

/-- C158: every float of the range has an index among those of the column, and others are refused. -/
theorem C158_index_in_range {minv maxv : ℚ} {size : Nat} {nullable : Bool} {v : FVar ℚ} (h : fvarInit minv maxv size nullable = .ok v)
    (h0 : IsDouble minv) (h1 : IsDouble maxv) (x : ℚ) (hx : IsDouble x) :
    (minv ≤ x ∧ x ≤ maxv → ∃ i, fvarIndex v x = .ok i ∧ 0 ≤ i ∧ i ≤ 256 ^ size - if nullable then 1 else 0) ∧
      (¬ (minv ≤ x ∧ x ≤ maxv) → fvarIndex v x = .error .assertionError) := by
  obtain ⟨hlt, e0, e1, ed, es, hs, -, -⟩ := fvarInit_ok h
  constructor
  · rintro ⟨a, b⟩
    refine ⟨_, fvarIndex_eq h h0 h1 a b, ?_, ?_⟩
    · refine le_min ?_ hs.le
      apply le_pyRound_of_le
      have p1 : 0 ≤ fl (x - minv) := le_fl double_zero (by linarith)
      have p2 : 0 ≤ fl (v.span : ℚ) := le_fl double_zero (by exact_mod_cast hs.le)
      have p3 : 0 ≤ fl (maxv - minv) := le_fl double_zero (by linarith)
      have p4 : 0 ≤ fl (fl (x - minv) * fl (v.span : ℚ)) := le_fl double_zero (by positivity)
      exact_mod_cast le_fl double_zero (by positivity)
    · refine le_trans (min_le_right _ _) ?_
      rw [es]; cases nullable <;> simp [b2i]
  · intro hn
    have : (decide (minv ≤ x) && decide (x ≤ maxv)) = false := by
      rw [Bool.and_eq_false_iff]
      by_cases a : minv ≤ x
      · right; simpa using not_le.mp (fun b => hn ⟨a, b⟩)
      · left; simpa using a
    simp only [fvarIndex, e0, e1, this, pyAssert]
    rfl

/-- C158: larger floats have larger indices, and larger indices stand for larger floats. -/
theorem C158_monotone {minv maxv : ℚ} {size : Nat} {nullable : Bool} {v : FVar ℚ} (h : fvarInit minv maxv size nullable = .ok v)
    (h0 : IsDouble minv) (h1 : IsDouble maxv) :
    (∀ (x y : ℚ) (i j : ℤ), x ≤ y → fvarIndex v x = .ok i → fvarIndex v y = .ok j → i ≤ j) ∧
      (∀ (i j : ℤ) (x y : ℚ), i ≤ j → fvarValue v i = .ok (some x) → fvarValue v j = .ok (some y) → x ≤ y) ∧
      fvarValue v 0 = .ok (some minv) := by
  obtain ⟨hlt, e0, e1, ed, es, hs, -, -⟩ := fvarInit_ok h
  have p3 : 0 ≤ fl (maxv - minv) := le_fl double_zero (by linarith)
  have p2 : 0 ≤ fl (v.span : ℚ) := le_fl double_zero (by exact_mod_cast hs.le)
  have dom : ∀ x i, fvarIndex v x = .ok i → minv ≤ x ∧ x ≤ maxv := by
    intro x i hi
    simp only [fvarIndex, pyAssert, e0, e1] at hi
    split at hi
    · rename_i hb
      simpa using hb
    · cases hi
  refine ⟨?_, ?_, ?_⟩
  · intro x y i j hxy hi hj
    obtain ⟨a, b⟩ := dom x i hi
    obtain ⟨c, d⟩ := dom y j hj
    rw [fvarIndex_eq h h0 h1 a b] at hi
    rw [fvarIndex_eq h h0 h1 c d] at hj
    injection hi with hi
    injection hj with hj
    rw [← hi, ← hj]
    refine min_le_min ?_ le_rfl
    refine pyRound_mono (fl_mono (div_le_div_of_nonneg_right (fl_mono (mul_le_mul_of_nonneg_right (fl_mono ?_) p2)) p3))
    linarith
  · intro i j x y hij hi hj
    have val : ∀ i x, fvarValue v i = .ok (some x) → x = fl (v.minv + fl (fl (fl i * v.delta) / fl v.span)) := by
      intro i x hi
      simp only [fvarValue, pyAssert] at hi
      split at hi
      · split at hi <;> cases hi
      · split at hi
        · injection hi with hi; injection hi with hi; exact hi.symm
        · cases hi
    rw [val i x hi, val j y hj, ed]
    refine fl_mono (add_le_add le_rfl (fl_mono (div_le_div_of_nonneg_right (fl_mono (mul_le_mul_of_nonneg_right (fl_mono ?_) p3)) p2)))
    exact_mod_cast hij
  · have : ¬ (0 : ℤ) = v.span + 1 := by omega
    simp only [fvarValue, if_neg this, hs.le, le_refl, decide_true, Bool.and_self, pyAssert, e0, ed]
    have z : fl ((0 : ℤ) : ℚ) = 0 := by rw [Int.cast_zero]; exact fl_id double_zero
    rw [z, zero_mul, fl_id double_zero, zero_div, fl_id double_zero, add_zero, fl_id h0]
    rfl

theorem fvarValue_eq {minv maxv : ℚ} {size : Nat} {nullable : Bool} {v : FVar ℚ} (h : fvarInit minv maxv size nullable = .ok v) {i : ℤ}
    (hi : 0 ≤ i) (his : i ≤ v.span) : fvarValue v i = .ok (some (fl (minv + fl (fl (fl i * fl (maxv - minv)) / fl v.span)))) := by
  obtain ⟨hlt, e0, e1, ed, es, hs, -, -⟩ := fvarInit_ok h
  have : ¬ i = v.span + 1 := by omega
  simp only [fvarValue, if_neg this, hi, his, decide_true, Bool.and_self, pyAssert, e0, ed]
  rfl

/-- The number that an integer stands for, up to rounding. -/
theorem decoded_close {minv maxv : ℚ} (h0 : IsDouble minv) (h1 : IsDouble maxv) (hlt : minv < maxv) (S i : ℤ) (hS : 0 < S) (hi : 0 ≤ i)
    (hiS : i ≤ S) {u η : ℚ} (hu : u = 2 ^ (-53 : ℤ)) (hη : η = 2 ^ (-1075 : ℤ)) :
    |fl (minv + fl (fl (fl i * fl (maxv - minv)) / fl S)) - (minv + i * (maxv - minv) / S)| ≤ 18 * u * max |minv| |maxv| + 2 * η := by
  have u0 : 0 < u := by rw [hu]; exact two_zpow_pos _
  have u1 : u ≤ 1 / 1000 := by rw [hu]; norm_num
  have η0 : 0 < η := by rw [hη]; exact two_zpow_pos _
  have k := value_close h0 h1 hlt S i hS hi hu hη
  have g := grid_error (grid_add (grid_of_double h0) (grid_of_double (fl_double (fl (fl i * fl (maxv - minv)) / fl S))))
  rw [← hu] at g
  clear hu hη
  generalize fl (fl (fl i * fl (maxv - minv)) / fl S) = w at *
  generalize fl (minv + w) = y at *
  have m1 := le_max_left |minv| |maxv|
  have m2 := le_max_right |minv| |maxv|
  generalize max |minv| |maxv| = M at *
  obtain ⟨b1, b2⟩ := abs_le.mp m1
  obtain ⟨c1, c2⟩ := abs_le.mp m2
  have hSq : (0 : ℚ) < S := by exact_mod_cast hS
  have hiq : (0 : ℚ) ≤ i := by exact_mod_cast hi
  have hD : 0 < maxv - minv := by linarith
  have hV1 : i * (maxv - minv) / S ≤ maxv - minv := by
    rw [div_le_iff₀ hSq]
    have : (i : ℚ) ≤ S := by exact_mod_cast hiS
    have := mul_le_mul_of_nonneg_right this hD.le
    linarith
  have hV0 : 0 ≤ i * (maxv - minv) / S := by positivity
  generalize (i : ℚ) * (maxv - minv) / S = V at *
  obtain ⟨k1, k2⟩ := abs_le.mp k
  have uV : u * V ≤ u * (2 * M) := mul_le_mul_of_nonneg_left (by linarith) u0.le
  have hw : |minv + w| ≤ 2 * M + η := by
    have uV' : 7 * u * V ≤ 7 * u * (2 * M) := by linarith
    have uM : u * M ≤ 1 / 1000 * M := mul_le_mul_of_nonneg_right u1 (by linarith)
    rw [abs_le]; constructor <;> linarith
  have g2 : |minv + w| * u ≤ (2 * M + η) * u := mul_le_mul_of_nonneg_right hw u0.le
  have g3 : η * u ≤ η * (1 / 1000) := mul_le_mul_of_nonneg_left u1 η0.le
  have h6 := abs_sub_le y (minv + w) (minv + V)
  have h7 : minv + w - (minv + V) = w - V := by ring
  rw [h7] at h6
  have uM0 : 0 ≤ u * M := mul_nonneg u0.le (by linarith)
  linarith

/-- C158: what comes back is half a quantum away at most, up to the rounding of the arithmetic. -/
theorem C158_error_bound {minv maxv : ℚ} {size : Nat} {nullable : Bool} {v : FVar ℚ} (h : fvarInit minv maxv size nullable = .ok v)
    (h0 : IsDouble minv) (h1 : IsDouble maxv) (x : ℚ) (hx : IsDouble x) (i : ℤ) (hi : fvarIndex v x = .ok i) :
    ∃ y, fvarValue v i = .ok (some y) ∧
      |y - x| ≤ (maxv - minv) / (2 * (256 ^ size - if nullable then 1 else 0)) + 2 ^ (-47 : ℤ) * max |minv| |maxv| + 2 ^ (-1073 : ℤ) := by
  obtain ⟨hlt, e0, e1, ed, es, hs, -, -⟩ := fvarInit_ok h
  have hin : minv ≤ x ∧ x ≤ maxv := by
    by_contra hn
    rw [(C158_index_in_range h h0 h1 x hx).2 hn] at hi
    cases hi
  rw [fvarIndex_eq h h0 h1 hin.1 hin.2] at hi
  injection hi with hi
  obtain ⟨j, hj, hj0, -⟩ := (C158_index_in_range h h0 h1 x hx).1 hin
  rw [fvarIndex_eq h h0 h1 hin.1 hin.2] at hj
  injection hj with hj
  have hi0 : 0 ≤ i := by rw [← hi, hj]; exact hj0
  have his : i ≤ v.span := by rw [← hi]; exact min_le_right _ _
  refine ⟨_, fvarValue_eq h hi0 his, ?_⟩
  have hcast : ((256 : ℚ) ^ size - if nullable then 1 else 0) = ((v.span : ℤ) : ℚ) := by
    rw [es]; cases nullable <;> simp [b2i]
  rw [hcast]
  have e47 : (2 : ℚ) ^ (-47 : ℤ) = 64 * 2 ^ (-53 : ℤ) := by norm_num
  have e1073 : (2 : ℚ) ^ (-1073 : ℤ) = 4 * 2 ^ (-1075 : ℤ) := by
    rw [show (-1073 : ℤ) = 2 + -1075 by norm_num, zpow_add₀ (by norm_num)]; norm_num
  rw [e47, e1073]
  obtain ⟨u, hu⟩ : ∃ u : ℚ, u = 2 ^ (-53 : ℤ) := ⟨_, rfl⟩
  obtain ⟨η, hη⟩ : ∃ η : ℚ, η = 2 ^ (-1075 : ℤ) := ⟨_, rfl⟩
  rw [← hu, ← hη]
  have u0 : 0 < u := by rw [hu]; exact two_zpow_pos _
  have u1 : u ≤ 1 / 1000 := by rw [hu]; norm_num
  have η0 : 0 < η := by rw [hη]; exact two_zpow_pos _
  have η1 : η ≤ u := by rw [hu, hη]; exact zpow_le_zpow_right₀ (by norm_num) (by norm_num)
  have k := index_close h0 h1 hx hlt v.span hu hη
  have g := decoded_close h0 h1 hlt v.span i hs hi0 his hu hη
  have hr := pyRound_abs (fl (fl (fl (x - minv) * fl (v.span : ℚ)) / fl (maxv - minv)))
  clear hu hη hcast hj hj0 ed es e47 e1073
  generalize fl (minv + fl (fl (fl (i : ℚ) * fl (maxv - minv)) / fl (v.span : ℚ))) = y at *
  generalize fl (fl (fl (x - minv) * fl (v.span : ℚ)) / fl (maxv - minv)) = t at *
  generalize v.span = S at *
  have hSq : (1 : ℚ) ≤ S := by exact_mod_cast hs
  have hD : 0 < maxv - minv := by linarith
  have hT1 : (x - minv) * S / (maxv - minv) ≤ S := by
    rw [div_le_iff₀ hD, mul_comm]
    exact mul_le_mul_of_nonneg_left (by linarith [hin.2]) (by linarith)
  have hT0 : 0 ≤ (x - minv) * S / (maxv - minv) := by
    have : 0 ≤ x - minv := by linarith [hin.1]
    positivity
  rw [abs_of_nonneg hT0] at k
  have hxT : x = minv + (x - minv) * S / (maxv - minv) * ((maxv - minv) / S) := by
    have : (S : ℚ) ≠ 0 := by linarith
    field_simp
    ring
  have hyi : minv + i * (maxv - minv) / S = minv + i * ((maxv - minv) / S) := by ring
  rw [hyi] at g
  have hq : (maxv - minv) / (2 * S) = 1 / 2 * ((maxv - minv) / S) := by field_simp
  rw [hq]
  have hQS : (maxv - minv) / S * S = maxv - minv := by
    have : (S : ℚ) ≠ 0 := by linarith
    field_simp
  have hQ : 0 < (maxv - minv) / S := by positivity
  have m1 := le_max_left |minv| |maxv|
  have m2 := le_max_right |minv| |maxv|
  generalize max |minv| |maxv| = M at *
  generalize (x - minv) * S / (maxv - minv) = T at *
  generalize (maxv - minv) / S = Q at *
  have h1 : |(i : ℚ) - T| ≤ 1 / 2 + 8 * u * S := by
    have a1 : |((pyRound t : ℤ) : ℚ) - T| ≤ 1 / 2 + 8 * u * S := by
      have := abs_sub_le ((pyRound t : ℤ) : ℚ) t T
      have k2 : 7 * u * T ≤ 7 * u * S := mul_le_mul_of_nonneg_left hT1 (by linarith)
      have k3 : u * 1 ≤ u * S := mul_le_mul_of_nonneg_left hSq u0.le
      linarith
    have hus : 0 ≤ 8 * u * S := by positivity
    rcases le_total (pyRound t) S with hle | hle
    · rw [min_eq_left hle] at hi
      rw [← hi]; exact a1
    · rw [min_eq_right hle] at hi
      rw [← hi]
      have : (S : ℚ) ≤ ((pyRound t : ℤ) : ℚ) := by exact_mod_cast hle
      obtain ⟨b1, b2⟩ := abs_le.mp a1
      rw [abs_le]; constructor <;> linarith
  have h2 : |(minv + i * Q) - x| ≤ 1 / 2 * Q + 8 * u * (maxv - minv) := by
    have e : (minv + i * Q) - x = (i - T) * Q := by
      conv_lhs => rw [hxT]
      ring
    rw [e, abs_mul, abs_of_pos hQ, ← hQS]
    have := mul_le_mul_of_nonneg_right h1 hQ.le
    linarith
  have h3 := abs_sub_le y (minv + i * Q) x
  obtain ⟨b1, b2⟩ := abs_le.mp m1
  obtain ⟨c1, c2⟩ := abs_le.mp m2
  have h4 : 8 * u * (maxv - minv) ≤ 8 * u * (2 * M) := mul_le_mul_of_nonneg_left (by linarith) (by linarith)
  have uM0 : 0 ≤ u * M := mul_nonneg u0.le (by linarith)
  linarith

/-- C158: an index is found again from the number it stands for, when the indices are few enough for floats to tell them apart and that
number is in the range. -/
theorem C158_stable_partial {minv maxv : ℚ} {size : Nat} {nullable : Bool} {v : FVar ℚ} (h : fvarInit minv maxv size nullable = .ok v)
    (h0 : IsDouble minv) (h1 : IsDouble maxv) (hfew : 256 ^ size * (max |minv| |maxv| + 2 ^ (-1022 : ℤ)) ≤ 2 ^ 45 * (maxv - minv))
    (i : ℤ) (y : ℚ) (hi : fvarValue v i = .ok (some y)) (hy : y ≤ maxv) : fvarIndex v y = .ok i := by
  obtain ⟨hlt, e0, e1, ed, es, hs, -, -⟩ := fvarInit_ok h
  have hi1 : 0 ≤ i ∧ i ≤ v.span := by
    simp only [fvarValue, pyAssert] at hi
    split at hi
    · split at hi <;> cases hi
    · split at hi
      · rename_i hb; simpa using hb
      · cases hi
  have hy0 : minv ≤ y := (C158_monotone h h0 h1).2.1 0 i minv y hi1.1 (C158_monotone h h0 h1).2.2 hi
  rw [fvarIndex_eq h h0 h1 hy0 hy]
  rw [fvarValue_eq h hi1.1 hi1.2] at hi
  injection hi with hi
  injection hi with hi
  have hyd : IsDouble y := by rw [← hi]; exact fl_double _
  suffices hk : pyRound (fl (fl (fl (y - minv) * fl (v.span : ℚ)) / fl (maxv - minv))) = i by
    rw [hk, min_eq_left hi1.2]
  have hS256 : (v.span : ℚ) ≤ 256 ^ size := by
    rw [es]; push_cast
    have : (0 : ℚ) ≤ b2i nullable := by cases nullable <;> simp [b2i]
    linarith
  obtain ⟨u, hu⟩ : ∃ u : ℚ, u = 2 ^ (-53 : ℤ) := ⟨_, rfl⟩
  obtain ⟨η, hη⟩ : ∃ η : ℚ, η = 2 ^ (-1075 : ℤ) := ⟨_, rfl⟩
  have u0 : 0 < u := by rw [hu]; exact two_zpow_pos _
  have η0 : 0 < η := by rw [hη]; exact two_zpow_pos _
  have η1 : η ≤ u := by rw [hu, hη]; exact zpow_le_zpow_right₀ (by norm_num) (by norm_num)
  have hη' : η = u * 2 ^ (-1022 : ℤ) := by rw [hu, hη, ← zpow_add₀ (by norm_num)]; norm_num
  have u45 : 2 ^ 45 * u = 1 / 256 := by rw [hu]; norm_num
  have k := index_close h0 h1 hyd hlt v.span hu hη
  have g := decoded_close h0 h1 hlt v.span i hs hi1.1 hi1.2 hu hη
  rw [hi] at g
  clear hi hu hη ed es
  generalize fl (fl (fl (y - minv) * fl (v.span : ℚ)) / fl (maxv - minv)) = t at *
  generalize v.span = S at *
  have ν0 := two_zpow_pos (-1022)
  generalize (2 : ℚ) ^ (-1022 : ℤ) = ν at *
  have hSq : (1 : ℚ) ≤ S := by exact_mod_cast hs
  have hD : 0 < maxv - minv := by linarith
  have m1 := le_max_left |minv| |maxv|
  have m2 := le_max_right |minv| |maxv|
  generalize max |minv| |maxv| = M at *
  obtain ⟨b1, b2⟩ := abs_le.mp m1
  obtain ⟨c1, c2⟩ := abs_le.mp m2
  have hT1 : (y - minv) * S / (maxv - minv) ≤ S := by
    rw [div_le_iff₀ hD, mul_comm]
    exact mul_le_mul_of_nonneg_left (by linarith) (by linarith)
  have hT0 : 0 ≤ (y - minv) * S / (maxv - minv) := by
    have : 0 ≤ y - minv := by linarith
    positivity
  rw [abs_of_nonneg hT0] at k
  -- how far the exact position is from the index
  have hT : |(y - minv) * S / (maxv - minv) - i| ≤ (18 * u * M + 2 * η) * (S / (maxv - minv)) := by
    have e : (y - minv) * S / (maxv - minv) - i = (y - (minv + i * (maxv - minv) / S)) * (S / (maxv - minv)) := by
      have : (S : ℚ) ≠ 0 := by linarith
      field_simp
      ring
    rw [e, abs_mul, abs_of_pos (by positivity : 0 < S / (maxv - minv))]
    exact mul_le_mul_of_nonneg_right g (by positivity)
  have hq : (M + ν) * (S / (maxv - minv)) ≤ 2 ^ 45 := by
    rw [← mul_div_assoc, div_le_iff₀ hD]
    have := mul_le_mul_of_nonneg_right hS256 (by linarith : 0 ≤ M + ν)
    linarith
  have hq2 : S * 1 ≤ 2 * (M + ν) * (S / (maxv - minv)) := by
    rw [← mul_div_assoc, le_div_iff₀ hD]
    have := mul_le_mul_of_nonneg_left (by linarith : maxv - minv ≤ 2 * (M + ν)) (by linarith : (0 : ℚ) ≤ S)
    linarith
  have hR : 0 < S / (maxv - minv) := by positivity
  generalize (S : ℚ) / (maxv - minv) = R at *
  generalize (y - minv) * S / (maxv - minv) = T at *
  have p1 : (18 * u * M + 2 * η) * R ≤ 18 * (1 / 256) := by
    have a1 : 18 * u * M + 2 * η ≤ 18 * u * (M + ν) := by
      rw [hη']
      have : 0 < u * ν := by positivity
      linarith
    have a2 := mul_le_mul_of_nonneg_right a1 hR.le
    have a3 := mul_le_mul_of_nonneg_left hq u0.le
    linarith
  have p2 : u * S ≤ 2 * (1 / 256) := by
    have a1 := mul_le_mul_of_nonneg_left hq2 u0.le
    have a3 := mul_le_mul_of_nonneg_left hq u0.le
    linarith
  have p3 : |t - i| < 1 / 2 := by
    have := abs_sub_le t T i
    have k2 : 7 * u * T ≤ 7 * u * S := mul_le_mul_of_nonneg_left hT1 (by linarith)
    have k3 : u * 1 ≤ u * S := mul_le_mul_of_nonneg_left hSq u0.le
    linarith
  have p4 := pyRound_abs t
  have p5 : |((pyRound t : ℤ) : ℚ) - i| < 1 := by
    have := abs_sub_le ((pyRound t : ℤ) : ℚ) t i
    linarith
  rw [← Int.cast_sub, ← Int.cast_abs] at p5
  have p6 : |pyRound t - i| < 1 := by exact_mod_cast p5
  have := Int.abs_lt_one_iff.mp p6
  omega

/-- C158: the last index can stand for a number above the maximum (-6.7 to 9.6 on one byte): that number cannot be encoded again. -/
theorem C158_stable_violated : ∃ (minv maxv y : ℚ) (v : FVar ℚ), IsDouble minv ∧ IsDouble maxv ∧ fvarInit minv maxv 1 true = .ok v ∧
    256 ^ 1 * (max |minv| |maxv| + 2 ^ (-1022 : ℤ)) ≤ 2 ^ 45 * (maxv - minv) ∧
    fvarIndex v maxv = .ok 255 ∧ fvarValue v 255 = .ok (some y) ∧ maxv < y ∧ fvarIndex v y = .error .assertionError := by
  refine ⟨(-7543529375845581 : ℤ) * 2 ^ (-50 : ℤ), (5404319552844595 : ℤ) * 2 ^ (-49 : ℤ), fl (((5404319552844595 : ℤ) * 2 ^ (-49 : ℤ)) * (1 + 2 ^ (-52 : ℤ))),
    ⟨(-7543529375845581 : ℤ) * 2 ^ (-50 : ℤ), (5404319552844595 : ℤ) * 2 ^ (-49 : ℤ), 1, fl ((5404319552844595 : ℤ) * 2 ^ (-49 : ℤ) - (-7543529375845581 : ℤ) * 2 ^ (-50 : ℤ)), 255, true⟩,
    double_mk (by norm_num) (by norm_num), double_mk (by norm_num) (by norm_num), by decide +kernel, by decide +kernel, by decide +kernel,
    by decide +kernel, by decide +kernel, by decide +kernel⟩

example : (do
    let v ← fvarInit (-10) 10 2 true
    let i ← fvarIndex v (1/4)
    let y ← fvarValue v i
    let j ← fvarIndex v (y.getD 0)
    return (v.span, i, decide (|y.getD 0 - 1/4| ≤ 1 / 6553), decide (i = j))) = .ok (65535, 33587, true, true) ∧
    (256 : ℚ) ^ 2 * (max |(-10 : ℚ)| |10| + 2 ^ (-1022 : ℤ)) ≤ 2 ^ 45 * (10 - -10) := by
  constructor <;> decide +kernel

end Flt
end Coral
