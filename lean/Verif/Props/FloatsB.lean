import Verif.Model.FloatsB
import Verif.Props.Floats
import Verif.Proofs.Grid
import Verif.Props.Gradient

/-!
# Arithmetic on floats: statistics, gradients, grids and P files (C156-C160)
-/
namespace Coral
namespace Flt

/-! ### C156 -/

theorem div_ok {a b : ℚ} (h : b ≠ 0) : div a b = .ok (fl (a / b)) := by rw [div, if_neg h]

theorem avg_ok {seq : List ℚ} (h : seq ≠ []) : avg seq = .ok (fl (fl seq.sum / seq.length)) := by
  have : (seq.length : ℚ) ≠ 0 := by
    have := List.length_pos_iff.mpr h
    exact_mod_cast this.ne'
  rw [avg, div_ok this]
  rfl

theorem var_ok {seq : List ℚ} (h : seq ≠ []) : ∃ u, avg seq = .ok u ∧
    var seq = .ok (fl (fl (seq.map (fun x => fl (fl (x - u) * fl (x - u)))).sum / seq.length)) := by
  have hn : (seq.length : ℚ) ≠ 0 := by
    have := List.length_pos_iff.mpr h
    exact_mod_cast this.ne'
  refine ⟨_, avg_ok h, ?_⟩
  rw [var, avg_ok h]
  show div _ _ = _
  rw [div_ok hn]
  rfl

/-- C156: the variance of floats is never negative, so `std_dev` finds a root. -/
theorem C156_variance_not_negative (seq : List ℚ) (h : seq ≠ []) : ∃ v, var seq = .ok v ∧ 0 ≤ v := by
  obtain ⟨u, -, hv⟩ := var_ok h
  refine ⟨_, hv, le_fl double_zero (div_nonneg (le_fl double_zero (List.sum_nonneg ?_)) (by positivity))⟩
  intro y hy
  obtain ⟨x, -, rfl⟩ := List.mem_map.mp hy
  exact le_fl double_zero (mul_self_nonneg _)

/-- C156: the computed average is within three rounding errors of the exact one. -/
theorem C156_average_close (seq : List ℚ) (h : seq ≠ []) :
    ∃ u, avg seq = .ok u ∧ |u - seq.sum / seq.length| ≤ 3 * |seq.sum / seq.length| * 2 ^ (-53 : ℤ) + 3 * 2 ^ (-1075 : ℤ) := by
  refine ⟨_, avg_ok h, ?_⟩
  have hn : (1 : ℚ) ≤ seq.length := by exact_mod_cast List.length_pos_iff.mpr h
  generalize (seq.length : ℚ) = n at *
  generalize seq.sum = s at *
  have e1 := fl_error s
  have e2 := fl_error (fl s / n)
  have hu := two_zpow_pos (-53)
  have hu1 : (2 : ℚ) ^ (-53 : ℤ) ≤ 1 := by norm_num
  have hη := two_zpow_pos (-1075)
  generalize (2 : ℚ) ^ (-53 : ℤ) = u at *
  generalize (2 : ℚ) ^ (-1075 : ℤ) = η at *
  generalize fl (fl s / n) = r at *
  generalize fl s = t at *
  have hn0 : (0 : ℚ) < n := by linarith
  have e3 : |t / n - s / n| ≤ |s / n| * u + η := by
    rw [← sub_div, abs_div, abs_div, abs_of_pos hn0]
    rw [div_le_iff₀ hn0]
    have : |s| / n * u * n = |s| * u := by field_simp
    nlinarith
  have e4 : |t / n| ≤ |s / n| + (|s / n| * u + η) := by
    calc |t / n| = |s / n + (t / n - s / n)| := by congr 1; ring
      _ ≤ |s / n| + |t / n - s / n| := abs_add_le _ _
      _ ≤ _ := by linarith
  have e5 : |r - s / n| ≤ |r - t / n| + |t / n - s / n| := by
    calc |r - s / n| = |(r - t / n) + (t / n - s / n)| := by congr 1; ring
      _ ≤ _ := abs_add_le _ _
  have k0 := abs_nonneg (s / n)
  generalize |s / n| = a at *
  have k1 : |t / n| * u ≤ (a + (a * u + η)) * u := mul_le_mul_of_nonneg_right e4 hu.le
  have k2 : a * u * u ≤ a * u * 1 := mul_le_mul_of_nonneg_left hu1 (by positivity)
  have k3 : η * u ≤ η * 1 := mul_le_mul_of_nonneg_left hu1 hη.le
  nlinarith

theorem sum_bounds {seq : List ℚ} {lo hi : ℚ} (h : ∀ x ∈ seq, lo ≤ x ∧ x ≤ hi) :
    seq.length * lo ≤ seq.sum ∧ seq.sum ≤ seq.length * hi := by
  induction seq with
  | nil => simp
  | cons a seq ih =>
    obtain ⟨i1, i2⟩ := ih (fun x hx => h x (List.mem_cons_of_mem _ hx))
    obtain ⟨a1, a2⟩ := h a (by simp)
    simp only [List.length_cons, List.sum_cons]
    push_cast
    constructor <;> linarith

/-- C156: the average lies between the bounds if those, times the number of elements, are floats: so for 1, 2, 4, ... numbers, and for
integers whose sum stays below 2⁵³; and equal numbers have no variance then. -/
theorem C156_average_between_partial (seq : List ℚ) (h : seq ≠ []) (lo hi : ℚ) (hl : IsDouble lo) (hh : IsDouble hi)
    (hs : ∀ x ∈ seq, lo ≤ x ∧ x ≤ hi) (nl : IsDouble (seq.length * lo)) (nh : IsDouble (seq.length * hi)) :
    ∃ u, avg seq = .ok u ∧ lo ≤ u ∧ u ≤ hi ∧ (lo = hi → var seq = .ok 0) := by
  have hn : (0 : ℚ) < seq.length := by exact_mod_cast List.length_pos_iff.mpr h
  obtain ⟨s1, s2⟩ := sum_bounds hs
  have b1 := le_fl nl s1
  have b2 := fl_le nh s2
  have c1 : lo ≤ fl (fl seq.sum / seq.length) := le_fl hl (by rw [le_div_iff₀ hn]; linarith)
  have c2 : fl (fl seq.sum / seq.length) ≤ hi := fl_le hh (by rw [div_le_iff₀ hn]; linarith)
  refine ⟨_, avg_ok h, c1, c2, ?_⟩
  rintro rfl
  obtain ⟨u, hu, hv⟩ := var_ok h
  have hul : u = lo := by
    have e := (avg_ok h).symm.trans hu
    injection e with e
    rw [← e]
    exact le_antisymm c2 c1
  have f0 : fl 0 = 0 := fl_id double_zero
  have hz : (seq.map (fun x => fl (fl (x - u) * fl (x - u)))).sum = 0 := by
    apply List.sum_eq_zero
    intro y hy
    obtain ⟨x, hx, rfl⟩ := List.mem_map.mp hy
    have : x = lo := le_antisymm (hs x hx).2 (hs x hx).1
    rw [this, hul, sub_self, f0, mul_zero, f0]
  rw [hv, hz, f0, zero_div, f0]

/-- The float written 0.1. -/
def tenth : ℚ := (0x1999999999999a : ℤ) * 2 ^ (-56 : ℤ)

/-- C156: the average of 0.1, 0.1 and 0.1 is above 0.1, and their variance is not zero. -/
theorem C156_average_between_violated :
    IsDouble tenth ∧ ∃ u v, avg [tenth, tenth, tenth] = .ok u ∧ tenth < u ∧ var [tenth, tenth, tenth] = .ok v ∧ 0 < v := by
  refine ⟨double_mk (by norm_num) (by norm_num), ?_⟩
  obtain ⟨u, hu, hv⟩ := var_ok (seq := [tenth, tenth, tenth]) (by simp)
  refine ⟨u, _, hu, ?_, hv, ?_⟩
  · have e := (avg_ok (seq := [tenth, tenth, tenth]) (by simp)).symm.trans hu
    injection e with e
    rw [← e]
    decide +kernel
  · have e := (avg_ok (seq := [tenth, tenth, tenth]) (by simp)).symm.trans hu
    injection e with e
    rw [← e]
    decide +kernel

example : avg [1, 2, 4, 5] = .ok 3 ∧ var [1, 2, 4, 5] = .ok (5 / 2) := by decide +kernel
example : IsDouble (([1, 2, 4, 5] : List ℚ).length * 1) ∧ IsDouble (([1, 2, 4, 5] : List ℚ).length * 5) :=
  ⟨⟨4, 0, by norm_num, by norm_num, by norm_num⟩, ⟨20, 0, by norm_num, by norm_num, by norm_num⟩⟩

/-! ### C157 -/

/-- The difference of two floats has a relative error, however small it is. -/
theorem sub_error {x y : ℚ} (hx : IsDouble x) (hy : IsDouble y) : |fl (x - y) - (x - y)| ≤ |x - y| * 2 ^ (-53 : ℤ) := by
  obtain ⟨m, e, hm, he, hxe⟩ := hx
  obtain ⟨m', e', hm', he', hye⟩ := hy
  obtain ⟨n, hn⟩ := double_grid hm hxe (E := -1074) (Or.inl he)
  obtain ⟨n', hn'⟩ := double_grid hm' hye (E := -1074) (Or.inl he')
  have hz : x - y = ((n - n' : ℤ) : ℚ) * 2 ^ (-1074 : ℤ) := by rw [hn, hn']; push_cast; ring
  generalize x - y = z at hz ⊢
  by_cases h0 : z = 0
  · rw [h0, fl_id double_zero]; simp
  by_cases hE : expOf z = -1074
  · have := fl_grid z (n - n')
    rw [hE, ← hz, sub_self, abs_zero] at this
    exact le_trans this (mul_nonneg (abs_nonneg _) (two_zpow_pos _).le)
  · have h1 := exp_le_abs h0 hE
    have h2 := fl_grid z (pyRound (z / 2 ^ expOf z))
    have h3 : |((pyRound (z / 2 ^ expOf z) : ℤ) : ℚ) * 2 ^ expOf z - z| ≤ 2 ^ expOf z / 2 := by
      have hp := two_zpow_pos (expOf z)
      have h4 := pyRound_abs (z / 2 ^ expOf z)
      have h5 : ((pyRound (z / 2 ^ expOf z) : ℤ) : ℚ) * 2 ^ expOf z - z = ((pyRound (z / 2 ^ expOf z) : ℚ) - z / 2 ^ expOf z) * 2 ^ expOf z := by
        field_simp
      rw [h5, abs_mul, abs_of_pos hp]
      have := mul_le_mul_of_nonneg_right h4 hp.le
      linarith
    have h6 : (2 : ℚ) ^ expOf z / 2 = 2 ^ (expOf z + 52) * 2 ^ (-53 : ℤ) := by
      rw [← zpow_add₀ (by norm_num), show expOf z + 52 + -53 = expOf z + -1 by ring, zpow_add₀ (by norm_num)]
      norm_num
      ring
    rw [h6] at h3
    exact le_trans h2 (le_trans h3 (mul_le_mul_of_nonneg_right h1 (two_zpow_pos _).le))

theorem ratio_close {u A D n d : ℚ} (hu : 0 < u) (hu1 : u ≤ 1 / 1000) (h0 : 0 ≤ n) (hnd : n ≤ d) (hd : 0 < d) (hA : |A - n| ≤ n * u)
    (hD : |D - d| ≤ d * u) : |A / D - n / d| ≤ 3 * u := by
  obtain ⟨a1, a2⟩ := abs_le.mp hA
  obtain ⟨d1, d2⟩ := abs_le.mp hD
  have hdu : d * u ≤ d * (1 / 1000) := mul_le_mul_of_nonneg_left hu1 hd.le
  have hDp : 0 < D := by linarith
  have hnu : n * u ≤ d * u := mul_le_mul_of_nonneg_right hnd hu.le
  have huu : d * u * u ≤ d * u * (1 / 1000) := mul_le_mul_of_nonneg_left hu1 (by positivity)
  have hdup : 0 < d * u := by positivity
  have t0 : 0 ≤ n / d := div_nonneg h0 hd.le
  have t1 : n / d ≤ 1 := by rw [div_le_one hd]; exact hnd
  have e : n / d * d = n := by field_simp
  generalize n / d = t at *
  have k1 : t * (d - d * u) ≤ t * D := mul_le_mul_of_nonneg_left (by linarith) t0
  have k2 : t * D ≤ t * (d + d * u) := mul_le_mul_of_nonneg_left (by linarith) t0
  have k3 : u * (d - d * u) ≤ u * D := mul_le_mul_of_nonneg_left (by linarith) hu.le
  have k4 : t * (d * u) ≤ 1 * (d * u) := mul_le_mul_of_nonneg_right t1 hdup.le
  rw [abs_le]
  constructor
  · have : t - 3 * u ≤ A / D := by
      rw [le_div_iff₀ hDp]
      nlinarith
    linarith
  · have : A / D ≤ t + 3 * u := by
      rw [div_le_iff₀ hDp]
      nlinarith
    linarith

theorem fl_close {u η x : ℚ} (hu : u = 2 ^ (-53 : ℤ)) (hη : η = 2 ^ (-1075 : ℤ)) : |fl x - x| ≤ |x| * u + η := by
  rw [hu, hη]; exact fl_error x

/-- One channel: the rounded interpolation is close to the exact one, and not negative. -/
theorem channel_close {pa pb x a b : ℚ} (hpa : IsDouble pa) (hpb : IsDouble pb) (hx : IsDouble x) (h1 : pa < x) (h2 : x < pb)
    (ha0 : 0 ≤ a) (ha1 : a ≤ 1) (hb0 : 0 ≤ b) (hb1 : b ≤ 1) :
    |fl (fl (a * fl (fl (pb - x) / fl (pb - pa))) + fl (b * fl (fl (x - pa) / fl (pb - pa)))) -
      (a * ((pb - x) / (pb - pa)) + b * ((x - pa) / (pb - pa)))| ≤ 2 ^ (-48 : ℤ) ∧
    0 ≤ fl (fl (a * fl (fl (pb - x) / fl (pb - pa))) + fl (b * fl (fl (x - pa) / fl (pb - pa)))) := by
  have hA := sub_error hpb hx
  have hB := sub_error hx hpa
  have hD := sub_error hpb hpa
  rw [abs_of_pos (by linarith : 0 < pb - x)] at hA
  rw [abs_of_pos (by linarith : 0 < x - pa)] at hB
  rw [abs_of_pos (by linarith : 0 < pb - pa)] at hD
  have pA : 0 ≤ fl (pb - x) := le_fl double_zero (by linarith)
  have pB : 0 ≤ fl (x - pa) := le_fl double_zero (by linarith)
  have pD : 0 ≤ fl (pb - pa) := le_fl double_zero (by linarith)
  obtain ⟨u, hu⟩ : ∃ u : ℚ, u = 2 ^ (-53 : ℤ) := ⟨_, rfl⟩
  obtain ⟨η, hη⟩ : ∃ η : ℚ, η = 2 ^ (-1075 : ℤ) := ⟨_, rfl⟩
  have hu0 : 0 < u := by rw [hu]; positivity
  have hu1 : u ≤ 1 / 1000 := by rw [hu]; norm_num
  have hη0 : 0 ≤ η := by rw [hη]; positivity
  have hηu : η ≤ u := by rw [hu, hη]; exact zpow_le_zpow_right₀ (by norm_num) (by norm_num)
  have h48 : (2 : ℚ) ^ (-48 : ℤ) = 32 * u := by rw [hu]; norm_num
  rw [h48]
  rw [← hu] at hA hB hD
  have r1 := ratio_close hu0 hu1 (by linarith : 0 ≤ pb - x) (by linarith : pb - x ≤ pb - pa) (by linarith) hA hD
  have r2 := ratio_close hu0 hu1 (by linarith : 0 ≤ x - pa) (by linarith : x - pa ≤ pb - pa) (by linarith) hB hD
  have q1 : 0 ≤ fl (pb - x) / fl (pb - pa) := div_nonneg pA pD
  have q2 : 0 ≤ fl (x - pa) / fl (pb - pa) := div_nonneg pB pD
  have t1 : (pb - x) / (pb - pa) + (x - pa) / (pb - pa) = 1 := by
    rw [← add_div]
    have : pb - x + (x - pa) = pb - pa := by ring
    rw [this]
    exact div_self (by linarith)
  have t2 : 0 ≤ (pb - x) / (pb - pa) := div_nonneg (by linarith) (by linarith)
  have t3 : 0 ≤ (x - pa) / (pb - pa) := div_nonneg (by linarith) (by linarith)
  generalize (pb - x) / (pb - pa) = s at *
  generalize (x - pa) / (pb - pa) = t at *
  generalize fl (pb - x) / fl (pb - pa) = s' at *
  generalize fl (x - pa) / fl (pb - pa) = t' at *
  have f1 := fl_close (x := s') hu hη
  have f2 := fl_close (x := t') hu hη
  have g1 : 0 ≤ fl s' := le_fl double_zero q1
  have g2 : 0 ≤ fl t' := le_fl double_zero q2
  have f3 := fl_close (x := a * fl s') hu hη
  have f4 := fl_close (x := b * fl t') hu hη
  have p1 : 0 ≤ a * fl s' := mul_nonneg ha0 g1
  have p2 : 0 ≤ b * fl t' := mul_nonneg hb0 g2
  have g3 : 0 ≤ fl (a * fl s') := le_fl double_zero p1
  have g4 : 0 ≤ fl (b * fl t') := le_fl double_zero p2
  have f5 := fl_close (x := fl (a * fl s') + fl (b * fl t')) hu hη
  have g5 : 0 ≤ fl (fl (a * fl s') + fl (b * fl t')) := le_fl double_zero (by linarith)
  refine ⟨?_, g5⟩
  rw [abs_of_nonneg q1] at f1
  rw [abs_of_nonneg q2] at f2
  rw [abs_of_nonneg p1] at f3
  rw [abs_of_nonneg p2] at f4
  rw [abs_of_nonneg (by linarith : 0 ≤ fl (a * fl s') + fl (b * fl t'))] at f5
  generalize fl (fl (a * fl s') + fl (b * fl t')) = w at *
  generalize fl (a * fl s') = v1 at *
  generalize fl (b * fl t') = v2 at *
  generalize fl s' = s2 at *
  generalize fl t' = t2' at *
  clear hA hB hD pA pB pD h48 hu hη hpa hpb hx h1 h2
  obtain ⟨r1a, r1b⟩ := abs_le.mp r1
  obtain ⟨r2a, r2b⟩ := abs_le.mp r2
  obtain ⟨f1a, f1b⟩ := abs_le.mp f1
  obtain ⟨f2a, f2b⟩ := abs_le.mp f2
  obtain ⟨f3a, f3b⟩ := abs_le.mp f3
  obtain ⟨f4a, f4b⟩ := abs_le.mp f4
  obtain ⟨f5a, f5b⟩ := abs_le.mp f5
  -- everything is at most 2
  have m1 : s' * u ≤ 2 * u := mul_le_mul_of_nonneg_right (by linarith) hu0.le
  have m2 : t' * u ≤ 2 * u := mul_le_mul_of_nonneg_right (by linarith) hu0.le
  have e1 : |s2 - s| ≤ 6 * u := abs_le.mpr ⟨by linarith, by linarith⟩
  have e2 : |t2' - t| ≤ 6 * u := abs_le.mpr ⟨by linarith, by linarith⟩
  have n1 : |a * s2 - a * s| ≤ 6 * u := by
    rw [← mul_sub, abs_mul, abs_of_nonneg ha0]
    exact le_trans (mul_le_mul ha1 e1 (abs_nonneg _) (by norm_num)) (by linarith)
  have n2 : |b * t2' - b * t| ≤ 6 * u := by
    rw [← mul_sub, abs_mul, abs_of_nonneg hb0]
    exact le_trans (mul_le_mul hb1 e2 (abs_nonneg _) (by norm_num)) (by linarith)
  obtain ⟨n1a, n1b⟩ := abs_le.mp n1
  obtain ⟨n2a, n2b⟩ := abs_le.mp n2
  have as1 : a * s ≤ s := by nlinarith
  have bt1 : b * t ≤ t := by nlinarith
  have m3 : a * s2 * u ≤ 2 * u := mul_le_mul_of_nonneg_right (by linarith) hu0.le
  have m4 : b * t2' * u ≤ 2 * u := mul_le_mul_of_nonneg_right (by linarith) hu0.le
  have m5 : (v1 + v2) * u ≤ 2 * u := mul_le_mul_of_nonneg_right (by linarith) hu0.le
  rw [abs_le]
  constructor <;> linarith

theorem pyIndex_nat_ok {α : Type} {l : List α} {i : Nat} {a : α} (h : pyIndex l (i : Int) = .ok a) : l[i]? = some a := by
  have h0 : ¬ ((i : Int) < 0) := by omega
  simp only [pyIndex, if_neg h0, Int.toNat_natCast, if_pos (Int.natCast_nonneg i)] at h
  cases hx : l[i]? with
  | none => rw [hx] at h; simp at h
  | some x =>
    rw [hx] at h
    injection h with h
    rw [h]

/-- The neighbours that `get` finds. -/
theorem neighbours {pos : List ℚ} {x pa pb : ℚ} (hh : ∃ p ps, pos = p :: ps ∧ p ≤ x)
    (hb : pyIndex pos (bisectLeft pos x : Int) = .ok pb) (hne : pb ≠ x) (ha : pyIndex pos ((bisectLeft pos x : Int) - 1) = .ok pa) :
    pa < x ∧ x < pb ∧ pa ∈ pos ∧ pb ∈ pos := by
  have hsplit := List.takeWhile_append_dropWhile (p := fun v => decide (v < x)) (l := pos)
  have h1 := pyIndex_nat_ok hb
  have hA : ∀ v ∈ pos.takeWhile (fun v => decide (v < x)), v < x := by
    intro v hv
    simpa using List.all_eq_true.mp (List.all_takeWhile (p := fun v => decide (v < x)) (l := pos)) v hv
  have hbl : bisectLeft pos x = (pos.takeWhile (fun v => decide (v < x))).length := rfl
  have hxb : x < pb := by
    have h1 : (pos.takeWhile (fun v => decide (v < x)) ++ pos.dropWhile (fun v => decide (v < x)))[(pos.takeWhile (fun v => decide (v < x))).length]? = some pb := by
      rw [hsplit]; exact h1
    rw [List.getElem?_append_right (le_refl _), Nat.sub_self] at h1
    cases hd : pos.dropWhile (fun v => decide (v < x)) with
    | nil => rw [hd] at h1; simp at h1
    | cons q qs =>
      rw [hd] at h1
      simp only [List.getElem?_cons_zero, Option.some.injEq] at h1
      have := List.head_dropWhile_not (fun v => decide (v < x)) (l := pos) (by rw [hd]; simp)
      simp only [hd, List.head_cons, decide_eq_false_iff_not, not_lt] at this
      rw [h1] at this
      exact lt_of_le_of_ne this (Ne.symm hne)
  have hpos : 0 < bisectLeft pos x := by
    obtain ⟨p, ps, rfl, hp⟩ := hh
    by_contra hc
    have h0 : bisectLeft (p :: ps) x = 0 := by omega
    rw [h0] at h1
    simp only [List.getElem?_cons_zero, Option.some.injEq] at h1
    rcases lt_or_eq_of_le hp with hlt | heq
    · simp [bisectLeft, List.takeWhile_cons, hlt] at h0
    · exact hne (by rw [← h1, heq])
  have hcast : (bisectLeft pos x : Int) - 1 = ((bisectLeft pos x - 1 : Nat) : Int) := by omega
  rw [hcast] at ha
  have h2 := pyIndex_nat_ok ha
  have hlt : bisectLeft pos x - 1 < (pos.takeWhile (fun v => decide (v < x))).length := by omega
  have h3 : (pos.takeWhile (fun v => decide (v < x)))[bisectLeft pos x - 1]? = some pa := by
    rw [← List.getElem?_append_left (l₂ := pos.dropWhile (fun v => decide (v < x))) hlt, hsplit]
    exact h2
  exact ⟨hA pa (List.mem_of_getElem? h3), hxb, List.mem_of_getElem? h2, List.mem_of_getElem? h1⟩

theorem pyIndex_mem {α : Type} {l : List α} {i : Int} {a : α} (h : pyIndex l i = .ok a) : a ∈ l := by
  simp only [pyIndex] at h
  generalize (if i < 0 then i + (l.length : Int) else i) = j at h
  by_cases hj : 0 ≤ j
  · rw [if_pos hj] at h
    cases hx : l[j.toNat]? with
    | none => rw [hx] at h; simp at h
    | some x =>
      rw [hx] at h
      injection h with h
      rw [← h]
      exact List.mem_of_getElem? hx
  · rw [if_neg hj] at h; simp at h

/-- A position that is there is found. -/
theorem found {pos : List ℚ} {x p : ℚ} (hs : pos.Pairwise (· ≤ ·)) (hx : x ∈ pos) (h : pyIndex pos (bisectLeft pos x : Int) = .ok p) : p = x := by
  have h1 := pyIndex_nat_ok h
  clear h
  induction pos with
  | nil => simp at hx
  | cons a pos ih =>
    rw [List.pairwise_cons] at hs
    by_cases ha : a < x
    · have e : bisectLeft (a :: pos) x = bisectLeft pos x + 1 := by simp [bisectLeft, List.takeWhile_cons, ha]
      rw [e, List.getElem?_cons_succ] at h1
      refine ih hs.2 ?_ h1
      rcases List.mem_cons.mp hx with rfl | hx
      · exact absurd ha (lt_irrefl _)
      · exact hx
    · have e : bisectLeft (a :: pos) x = 0 := by simp [bisectLeft, List.takeWhile_cons, ha]
      rw [e, List.getElem?_cons_zero] at h1
      injection h1 with h1
      rw [← h1]
      rcases List.mem_cons.mp hx with rfl | hx
      · rfl
      · exact le_antisymm (hs.1 x hx) (not_lt.mp ha)

theorem get_close {g : Gradient ℚ} {x : ℚ} {c : List ℚ} (hd : ∀ p ∈ g.pos, IsDouble p) (hx : IsDouble x) (hh : ∃ p ps, g.pos = p :: ps ∧ p ≤ x)
    (hc : ∀ cs ∈ g.rgb, ∀ v ∈ cs, 0 ≤ v ∧ v ≤ 1) (h : g.get x = .ok c) :
    ∃ c', get g x = .ok c' ∧ List.Forall₂ (fun v' v => |v' - v| ≤ 2 ^ (-48 : ℤ) ∧ 0 ≤ v') c' c ∧ (g.pos.Pairwise (· ≤ ·) → x ∈ g.pos → c' = c) := by
  have nn : (0 : ℚ) ≤ 2 ^ (-48 : ℤ) := (two_zpow_pos _).le
  simp only [Gradient.get, Py.bind_ok] at h
  obtain ⟨p, hp, h⟩ := h
  by_cases hpx : p = x
  · rw [if_pos hpx] at h
    refine ⟨c, ?_, ?_, fun _ _ => rfl⟩
    · simp only [get, hp, bind, Except.bind, if_pos hpx, h]
    · have := hc c (pyIndex_mem h)
      rw [List.forall₂_same]
      intro v hv
      exact ⟨by rw [sub_self, abs_zero]; exact nn, (this v hv).1⟩
  · rw [if_neg hpx] at h
    simp only [Py.bind_ok] at h
    obtain ⟨pa, hpa, pb, hpb, h⟩ := h
    have e : p = pb := by rw [hp] at hpb; injection hpb
    subst e
    obtain ⟨h1, h2, m1, m2⟩ := neighbours hh hp hpx hpa
    rw [if_neg (by linarith)] at h
    simp only [Py.bind_ok] at h
    obtain ⟨ca, hca, cb, hcb, h⟩ := h
    injection h with h
    have hz : fl (p - pa) ≠ 0 := fun hc => absurd ((C154_sides_do_not_vanish pa p (hd pa m1) (hd p m2)).mp hc) (by linarith)
    refine ⟨List.zipWith (fun ia ib => fl (fl (ia * fl (fl (p - x) / fl (p - pa))) + fl (ib * fl (fl (x - pa) / fl (p - pa))))) ca cb, ?_, ?_, ?_⟩
    · simp only [get, hp, bind, Except.bind, if_neg hpx, hpa, if_neg hz, hca, hcb]
      rfl
    · rw [← h]
      have ka := hc ca (pyIndex_mem hca)
      have kb := hc cb (pyIndex_mem hcb)
      clear h hca hcb
      induction ca generalizing cb with
      | nil => simp
      | cons a ca ih =>
        cases cb with
        | nil => simp
        | cons b cb =>
          simp only [List.zipWith_cons_cons]
          refine .cons (channel_close (hd pa m1) (hd p m2) hx h1 h2 (ka a (by simp)).1 (ka a (by simp)).2 (kb b (by simp)).1 (kb b (by simp)).2) ?_
          exact ih cb (fun v hv => ka v (by simp [hv])) (fun v hv => kb v (by simp [hv]))
    · intro hs hm
      exact absurd (found hs hm hp) hpx

theorem init_facts {stops : List (ℚ × List ℚ)} {g : Gradient ℚ} (h : Gradient.init stops = .ok g) (h01 : ∀ q ∈ stops, 0 ≤ q.1 ∧ q.1 ≤ 1) :
    (∀ p ∈ g.pos, p = 0 ∨ p = 1 ∨ ∃ q ∈ stops, q.1 = p) ∧ (∀ c ∈ g.rgb, ∃ q ∈ stops, q.2 = c) ∧ (∃ p ps, g.pos = p :: ps ∧ p ≤ 0) ∧
      g.pos.Pairwise (· ≤ ·) ∧ ∀ q ∈ stops, q.1 ∈ g.pos := by
  simp only [Gradient.init, extendStops, Py.bind_ok] at h
  obtain ⟨ext, ⟨f, hf, l, hl, he⟩, hg⟩ := h
  injection hg with hg
  have hsort := sorted_sortStops stops
  have hfm := mem_sortStops.mp (pyIndex_mem hf)
  have hcons : ∃ t, sortStops stops = f :: t := by
    have := pyIndex_nat_ok (i := 0) hf
    cases hs : sortStops stops with
    | nil => rw [hs] at this; simp at this
    | cons a t => rw [hs] at this; simp at this; exact ⟨t, by rw [this]⟩
  obtain ⟨t, ht⟩ := hcons
  -- the list before the end is added
  obtain ⟨mid, hmid⟩ : ∃ mid, mid = if 0 < f.1 then (0, f.2) :: sortStops stops else sortStops stops := ⟨_, rfl⟩
  rw [← hmid] at hl he
  have m1 : ∀ q ∈ mid, (q.1 = 0 ∨ ∃ s ∈ stops, s.1 = q.1) ∧ ∃ s ∈ stops, s.2 = q.2 := by
    intro q hq
    rw [hmid] at hq
    split at hq
    · rcases List.mem_cons.mp hq with rfl | hq
      · exact ⟨Or.inl rfl, f, hfm, rfl⟩
      · have := mem_sortStops.mp hq
        exact ⟨Or.inr ⟨q, this, rfl⟩, q, this, rfl⟩
    · have := mem_sortStops.mp hq
      exact ⟨Or.inr ⟨q, this, rfl⟩, q, this, rfl⟩
  have m2 : ∃ a as, mid = a :: as ∧ a.1 ≤ 0 := by
    rw [hmid]
    split
    · exact ⟨_, _, rfl, le_rfl⟩
    · rename_i hn
      exact ⟨f, t, ht, not_lt.mp hn⟩
  have m3 : mid.Pairwise (fun p q => p.1 ≤ q.1) := by
    rw [hmid]
    split
    · rw [List.pairwise_cons]
      exact ⟨fun q hq => (h01 q (mem_sortStops.mp hq)).1, hsort⟩
    · exact hsort
  have m4 : ∀ q ∈ mid, q.1 ≤ 1 := by
    intro q hq
    rcases (m1 q hq).1 with h0 | ⟨s, hs, h1⟩
    · rw [h0]; norm_num
    · rw [← h1]; exact (h01 s hs).2
  have m5 : ∀ q ∈ stops, q ∈ mid := by
    intro q hq
    rw [hmid]
    split
    · exact List.mem_cons_of_mem _ (mem_sortStops.mpr hq)
    · exact mem_sortStops.mpr hq
  have hlm := pyIndex_mem hl
  obtain ⟨a, as, hmc, ha0⟩ := m2
  injection he with he
  rw [← hg, ← he]
  by_cases hl1 : l.1 < 1
  · simp only [if_pos hl1, List.map_append, List.map_cons, List.map_nil]
    refine ⟨?_, ?_, ?_, ?_, ?_⟩
    · intro p hp
      rcases List.mem_append.mp hp with hp | hp
      · obtain ⟨q, hq, rfl⟩ := List.mem_map.mp hp
        rcases (m1 q hq).1 with h0 | h0
        · exact Or.inl h0
        · exact Or.inr (Or.inr h0)
      · simp only [List.mem_singleton] at hp; exact Or.inr (Or.inl hp)
    · intro c hc
      rcases List.mem_append.mp hc with hc | hc
      · obtain ⟨q, hq, rfl⟩ := List.mem_map.mp hc
        exact (m1 q hq).2
      · simp only [List.mem_singleton] at hc; rw [hc]; exact (m1 l hlm).2
    · rw [hmc]; exact ⟨a.1, as.map Prod.fst ++ [1], rfl, ha0⟩
    · rw [List.pairwise_append]
      refine ⟨List.pairwise_map.mpr m3, by simp, ?_⟩
      intro p hp r hr
      obtain ⟨q, hq, rfl⟩ := List.mem_map.mp hp
      simp only [List.mem_singleton] at hr
      rw [hr]; exact m4 q hq
    · intro q hq
      exact List.mem_append_left _ (List.mem_map_of_mem (m5 q hq))
  · simp only [if_neg hl1]
    refine ⟨?_, ?_, ?_, ?_, ?_⟩
    · intro p hp
      obtain ⟨q, hq, rfl⟩ := List.mem_map.mp hp
      rcases (m1 q hq).1 with h0 | h0
      · exact Or.inl h0
      · exact Or.inr (Or.inr h0)
    · intro c hc
      obtain ⟨q, hq, rfl⟩ := List.mem_map.mp hc
      exact (m1 q hq).2
    · rw [hmc]; exact ⟨a.1, as.map Prod.fst, rfl, ha0⟩
    · exact List.pairwise_map.mpr m3
    · intro q hq
      exact List.mem_map_of_mem (m5 q hq)

/-- C157: a gradient with float positions and channels from 0 to 1 gives, at every float from 0 to 1, the prescribed colour up to 2⁻⁴⁸ in
each channel, and exactly at its stops. -/
theorem C157_gradient_close (stops : List (ℚ × List ℚ)) (hne : stops ≠ []) (h01 : ∀ q ∈ stops, 0 ≤ q.1 ∧ q.1 ≤ 1)
    (hd : ∀ q ∈ stops, IsDouble q.1) (hc : ∀ q ∈ stops, ∀ v ∈ q.2, 0 ≤ v ∧ v ≤ 1) (x : ℚ) (hx : IsDouble x) (hx0 : 0 ≤ x) (hx1 : x ≤ 1) :
    ∃ g c c', Gradient.init stops = .ok g ∧ Prescribes stops x c ∧ get g x = .ok c' ∧
      List.Forall₂ (fun v' v => |v' - v| ≤ 2 ^ (-48 : ℤ) ∧ 0 ≤ v') c' c ∧ ((∃ q ∈ stops, q.1 = x) → c' = c) := by
  obtain ⟨g, c, h1, h2, h3⟩ := init_get stops hne h01 x hx0 hx1
  obtain ⟨f1, f2, ⟨p, ps, f3, f4⟩, f5, f6⟩ := init_facts h1 h01
  have d1 : IsDouble 1 := by simpa using double_int (n := 1) (by norm_num)
  obtain ⟨c', k1, k2, k3⟩ := get_close (g := g) (x := x) (c := c) (by
      intro p hp
      rcases f1 p hp with rfl | rfl | ⟨q, hq, rfl⟩
      · exact double_zero
      · exact d1
      · exact hd q hq) hx ⟨p, ps, f3, le_trans f4 hx0⟩ (by
      intro cs hcs
      obtain ⟨q, hq, rfl⟩ := f2 cs hcs
      exact hc q hq) h2
  refine ⟨g, c, c', h1, h3, k1, k2, ?_⟩
  rintro ⟨q, hq, rfl⟩
  exact k3 f5 (f6 q hq)

/-- Prescribed channels stay within those of the stops. -/
theorem prescribed_range {stops : List (ℚ × List ℚ)} {x : ℚ} {c : List ℚ} (hne : stops ≠ []) (h01 : ∀ q ∈ stops, 0 ≤ q.1 ∧ q.1 ≤ 1)
    (hc : ∀ q ∈ stops, ∀ v ∈ q.2, 0 ≤ v ∧ v ≤ 1) (hx0 : 0 ≤ x) (hx1 : x ≤ 1) (h : Prescribes stops x c) : ∀ v ∈ c, 0 ≤ v ∧ v ≤ 1 := by
  have mid : ∀ {l r : List (ℚ × List ℚ)} {p : ℚ × List ℚ}, stops = l ++ p :: r → p ∈ stops := by
    intro l r p h; rw [h]; simp
  rcases h with ⟨l, r, e, _⟩ | ⟨_, pa, ca, pb, cb, ⟨b1, _, l, r, e, _⟩, ⟨a1, _, l', r', e', _⟩, hz⟩ |
    ⟨_, p, _, _, l, r, e, _⟩ | ⟨_, p, _, _, l, r, e, _⟩
  · exact hc _ (mid e)
  · have ha := hc _ (mid e)
    have hb := hc _ (mid e')
    intro c hcm
    rw [hz] at hcm
    obtain ⟨i, hi, rfl⟩ := List.getElem_of_mem hcm
    rw [List.getElem_zipWith]
    have hi' := hi
    rw [List.length_zipWith] at hi'
    have u := ha _ (List.getElem_mem (l := ca) (n := i) (by omega))
    have v := hb _ (List.getElem_mem (l := cb) (n := i) (by omega))
    obtain ⟨w1, w2⟩ := C53_lerp_between (ca[i]'(by omega)) (cb[i]'(by omega)) b1 a1
    exact ⟨le_trans (le_min u.1 v.1) w1, le_trans w2 (max_le u.2 v.2)⟩
  · exact hc _ (mid e)
  · exact hc _ (mid e)

/-- C157: `get_hex` still gives one digit for each channel, the one of the exact colour unless that is within 2⁻⁴⁰ of the next digit. -/
theorem C157_hex_digits (stops : List (ℚ × List ℚ)) (hne : stops ≠ []) (h01 : ∀ q ∈ stops, 0 ≤ q.1 ∧ q.1 ≤ 1)
    (hd : ∀ q ∈ stops, IsDouble q.1) (hc : ∀ q ∈ stops, ∀ v ∈ q.2, 0 ≤ v ∧ v ≤ 1) (x : ℚ) (hx : IsDouble x) (hx0 : 0 ≤ x) (hx1 : x ≤ 1) :
    ∃ (g : Gradient ℚ) (c : List ℚ) (ds : List Nat), Gradient.init stops = .ok g ∧ Prescribes stops x c ∧
      List.Forall₂ (fun (v : ℚ) (d : Nat) => d < 16 ∧ d ≤ 15 * v + 2 ^ (-40 : ℤ) ∧ 15 * v < d + 1 + 2 ^ (-40 : ℤ)) c ds ∧
      getHex g x = .ok ('#' :: ds.map (fun d => "0123456789abcdef".toList.getD d '?')) := by
  obtain ⟨g, c, c', h1, h2, h3, h4, -⟩ := C157_gradient_close stops hne h01 hd hc x hx hx0 hx1
  have hr := prescribed_range hne h01 hc hx0 hx1 h2
  have all : ∀ e : Nat, e < 16 → pyIndex (pyHex (e : Int)) 2 = .ok ("0123456789abcdef".toList.getD e '?') := by
    decide +kernel
  have d15 : IsDouble (15 + 2 ^ (-44 : ℤ)) := ⟨15 * 2 ^ 44 + 1, -44, by norm_num, by norm_num, by norm_num⟩
  have one : ∀ v' v : ℚ, (|v' - v| ≤ 2 ^ (-48 : ℤ) ∧ 0 ≤ v') → 0 ≤ v ∧ v ≤ 1 → ∃ d : Nat, (d < 16 ∧ (d : ℚ) ≤ 15 * v + 2 ^ (-40 : ℤ) ∧
      15 * v < d + 1 + 2 ^ (-40 : ℤ)) ∧ pyIndex (pyHex (intTrunc (fl (v' * 15)))) 2 = .ok ("0123456789abcdef".toList.getD d '?') := by
    intro v' v hv hv1
    obtain ⟨a1, a2⟩ := abs_le.mp hv.1
    have b0 : 0 ≤ fl (v' * 15) := le_fl double_zero (by linarith [hv.2])
    have n48 : 15 * (2 : ℚ) ^ (-48 : ℤ) ≤ 2 ^ (-44 : ℤ) := by norm_num
    have b1 : fl (v' * 15) ≤ 15 + 2 ^ (-44 : ℤ) := fl_le d15 (by linarith [hv1.2])
    have n44 : (2 : ℚ) ^ (-44 : ℤ) < 1 := by norm_num
    have err : |fl (v' * 15) - v' * 15| ≤ 2 ^ (-43 : ℤ) := err_big (by
      rw [abs_of_nonneg (by linarith [hv.2])]
      linarith [hv1.2])
    obtain ⟨e1, e2⟩ := abs_le.mp err
    have n43 : (2 : ℚ) ^ (-44 : ℤ) + 2 ^ (-43 : ℤ) ≤ 2 ^ (-40 : ℤ) := by norm_num
    generalize fl (v' * 15) = w at *
    have f0 : 0 ≤ ⌊w⌋ := Int.floor_nonneg.mpr b0
    have f1 : ⌊w⌋ < 16 := Int.floor_lt.mpr (by push_cast; linarith)
    obtain ⟨d, hd⟩ := Int.eq_ofNat_of_zero_le f0
    have k1 := Int.floor_le w
    have k2 := Int.lt_floor_add_one w
    rw [hd] at k1 k2
    push_cast at k1 k2
    refine ⟨d, ⟨by omega, by linarith, by linarith⟩, ?_⟩
    have ht : intTrunc w = (d : Int) := by rw [intTrunc, if_neg (by linarith), hd]
    rw [ht]
    exact all d (by omega)
  obtain ⟨ds, hds1, hds2⟩ : ∃ ds : List Nat, List.Forall₂ (fun (v : ℚ) (d : Nat) => d < 16 ∧ (d : ℚ) ≤ 15 * v + 2 ^ (-40 : ℤ) ∧
      15 * v < d + 1 + 2 ^ (-40 : ℤ)) c ds ∧
      c'.mapM (fun i => pyIndex (pyHex (intTrunc (fl (i * 15)))) 2) = .ok (ds.map (fun d => "0123456789abcdef".toList.getD d '?')) := by
    clear h2 h3
    induction h4 with
    | nil => exact ⟨[], .nil, rfl⟩
    | cons hv _ ih =>
      obtain ⟨d, d1, d3⟩ := one _ _ hv (hr _ (by simp))
      obtain ⟨ds, e1, e2⟩ := ih (fun c h => hr c (by simp [h]))
      refine ⟨d :: ds, .cons d1 e1, ?_⟩
      rw [List.mapM_cons, d3, e2]
      rfl
  refine ⟨g, c, ds, h1, h2, hds1, ?_⟩
  simp only [getHex, h3, bind, Except.bind, hds2]
  rfl

/-- C157: between two white stops, the colour can be `#eee`. -/
theorem C157_equal_stops_violated :
    ∃ (g : Gradient ℚ) (x : ℚ), Gradient.init [(11 / 64, [1, 1, 1]), (52 / 64, [1, 1, 1])] = .ok g ∧ IsDouble x ∧ 11 / 64 < x ∧ x < 52 / 64 ∧
      g.get x = .ok [1, 1, 1] ∧ get g x ≠ .ok [1, 1, 1] ∧ getHex g x = .ok ['#', 'e', 'e', 'e'] := by
  refine ⟨⟨[0, 11 / 64, 52 / 64, 1], [[1, 1, 1], [1, 1, 1], [1, 1, 1], [1, 1, 1]]⟩, (0x10d0b8d4f258bb : ℤ) * 2 ^ (-54 : ℤ), by decide +kernel,
    double_mk (by norm_num) (by norm_num), by norm_num, by norm_num, ?_, ?_, ?_⟩ <;> decide +kernel

example : (do
    let g ← Gradient.init [((1/2 : ℚ), [0, 1]), (1/4, [1, 0]), (1/2, [1, 1])]
    let a ← get g (1/2)
    let b ← get g (3/8)
    let h ← getHex g (3/8)
    return (a, b, h)) = .ok ([0, 1], [1/2, 1/2], ['#', '7', '7']) := by decide +kernel

end Flt
end Coral
