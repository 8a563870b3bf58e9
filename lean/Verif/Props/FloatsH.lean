import Verif.Model.FloatsE
import Verif.Props.FloatsB
import Verif.Proofs.Stats
import Mathlib.Algebra.Order.BigOperators.Ring.Finset
import Mathlib.Data.Real.Archimedean

/-!
# Correlation on floats (C168)
-/
namespace Coral
namespace Flt

/-! ### Correctly rounded roots -/

/-- There is a float nearest to every real number that is not negative. -/
theorem exists_nearest (y : ℝ) (hy : 0 ≤ y) : ∃ r : ℚ, IsDouble r ∧ 0 ≤ r ∧ ∀ d : ℚ, IsDouble d → |(r : ℝ) - y| ≤ |(d : ℝ) - y| := by
  rcases hy.eq_or_lt with h0 | h0
  · refine ⟨0, double_zero, le_refl _, fun d _ => ?_⟩
    rw [← h0]; simp
  obtain ⟨E, hE⟩ : ∃ E, E = max (Int.log 2 y - 52) (-1074) := ⟨_, rfl⟩
  have hE1 : -1074 ≤ E := hE ▸ le_max_right _ _
  have hlt : y < (2 : ℝ) ^ (E + 53) := by
    have h1 : y < ((2 : ℕ) : ℝ) ^ (Int.log 2 y + 1) := Int.lt_zpow_succ_log_self (by norm_num) y
    refine h1.trans_le ?_
    push_cast
    exact zpow_le_zpow_right₀ (by norm_num) (by have := le_max_left (Int.log 2 y - 52) (-1074); omega)
  have hge : E = -1074 ∨ (2 : ℝ) ^ (E + 52) ≤ y := by
    rcases le_total (Int.log 2 y - 52) (-1074) with h | h
    · left; rw [hE, max_eq_right h]
    · right
      rw [hE, max_eq_left h]
      have := Int.zpow_log_le_self (b := 2) (r := y) (by norm_num) h0
      push_cast at this
      rwa [sub_add_cancel]
  have hp : (0 : ℝ) < 2 ^ E := by positivity
  obtain ⟨k, hk⟩ : ∃ k, k = ⌊y / 2 ^ E⌋ := ⟨_, rfl⟩
  have k1 : (k : ℝ) * 2 ^ E ≤ y := by
    have := Int.floor_le (y / 2 ^ E)
    rw [← hk, le_div_iff₀ hp] at this
    exact this
  have k2 : y < ((k : ℝ) + 1) * 2 ^ E := by
    have := Int.lt_floor_add_one (y / 2 ^ E)
    rw [← hk, div_lt_iff₀ hp] at this
    exact this
  have k0 : 0 ≤ k := by rw [hk]; exact Int.floor_nonneg.mpr (by positivity)
  have k3 : k < 2 ^ 53 := by
    have : (k : ℝ) * 2 ^ E < 2 ^ (53 : ℕ) * 2 ^ E := by
      refine k1.trans_lt (hlt.trans_le (le_of_eq ?_))
      rw [zpow_add₀ (by norm_num)]; norm_num; ring
    have := lt_of_mul_lt_mul_right this hp.le
    exact_mod_cast this
  have da : IsDouble ((k : ℚ) * 2 ^ E) := double_mk (by rw [abs_of_nonneg k0]; omega) hE1
  have db : IsDouble (((k + 1 : ℤ) : ℚ) * 2 ^ E) := double_mk (by rw [abs_of_nonneg (by omega)]; omega) hE1
  have gap : ∀ d : ℚ, IsDouble d → (d : ℝ) ≤ k * 2 ^ E ∨ ((k : ℝ) + 1) * 2 ^ E ≤ d := by
    intro d hd
    by_contra hc
    push Not at hc
    obtain ⟨c1, c2⟩ := hc
    obtain ⟨m, e, hm, he, hde⟩ := hd
    have hq1 : (k : ℚ) * 2 ^ E < d := Rat.cast_lt (K := ℝ).mp (by push_cast; exact c1)
    have hq2 : d < ((k : ℚ) + 1) * 2 ^ E := Rat.cast_lt (K := ℝ).mp (by push_cast; exact c2)
    obtain ⟨j, hj⟩ : ∃ j : ℤ, d = j * 2 ^ E := by
      refine double_grid hm hde ?_
      rcases hge with h | h
      · left; omega
      · right
        have hd0 : (0 : ℚ) < d := lt_of_le_of_lt (by positivity) hq1
        rw [abs_of_pos hd0]
        refine le_trans ?_ hq1.le
        have h2 : (2 : ℝ) ^ (52 : ℕ) < (k : ℝ) + 1 := by
          have : (2 : ℝ) ^ (52 : ℕ) * 2 ^ E < ((k : ℝ) + 1) * 2 ^ E := by
            refine lt_of_le_of_lt (le_of_eq ?_) (h.trans_lt k2)
            rw [zpow_add₀ (by norm_num)]; norm_num; ring
          exact lt_of_mul_lt_mul_right this hp.le
        have h3 : (2 : ℤ) ^ 52 < k + 1 := by exact_mod_cast h2
        have h4 : ((2 ^ 52 : ℤ) : ℚ) ≤ k := by exact_mod_cast Int.lt_add_one_iff.mp h3
        rw [zpow_add₀ (by norm_num), mul_comm]
        refine mul_le_mul_of_nonneg_right ?_ (by positivity)
        refine le_trans (le_of_eq ?_) h4
        norm_num
    have hpq : (0 : ℚ) < 2 ^ E := by positivity
    rw [hj] at hq1 hq2
    have j1 := lt_of_mul_lt_mul_right hq1 hpq.le
    have j2 := lt_of_mul_lt_mul_right hq2 hpq.le
    have j3 : k < j := by exact_mod_cast j1
    have j4 : j < k + 1 := by exact_mod_cast j2
    omega
  rcases le_total (y - k * 2 ^ E) (((k : ℝ) + 1) * 2 ^ E - y) with hc | hc
  · refine ⟨_, da, by positivity, fun d hd => ?_⟩
    push_cast
    rw [abs_of_nonpos (by linarith)]
    rcases gap d hd with g | g
    · rw [abs_of_nonpos (by linarith)]; linarith
    · rw [abs_of_nonneg (by linarith)]; linarith
  · refine ⟨_, db, mul_nonneg (by exact_mod_cast (by omega : 0 ≤ k + 1)) (by positivity), fun d hd => ?_⟩
    push_cast
    rw [abs_of_nonneg (by linarith)]
    rcases gap d hd with g | g
    · rw [abs_of_nonpos (by linarith)]; linarith
    · rw [abs_of_nonneg (by linarith)]; linarith

/-- Such a square root exists. -/
theorem exists_roundsRoots : ∃ sqrt, RoundsRoots sqrt := by
  have h : ∀ x : ℚ, ∃ r : ℚ, 0 ≤ x → IsDouble r ∧ 0 ≤ r ∧ ∀ d : ℚ, IsDouble d → |(r : ℝ) - √(x : ℝ)| ≤ |(d : ℝ) - √(x : ℝ)| := by
    intro x
    obtain ⟨r, hr⟩ := exists_nearest (√(x : ℝ)) (Real.sqrt_nonneg _)
    exact ⟨r, fun _ => hr⟩
  choose f hf using h
  exact ⟨f, hf⟩

/-- A root that lies strictly between two numbers that are rounded alike is rounded to the same float. -/
theorem root_eq {sqrt : ℚ → ℚ} (hr : RoundsRoots sqrt) {x lo hi r : ℚ} (hx : 0 ≤ x) (h0 : 0 ≤ lo) (h1 : lo * lo < x) (h2 : x < hi * hi) (h3 : 0 ≤ hi)
    (e1 : fl lo = r) (e2 : fl hi = r) : sqrt x = r := by
  obtain ⟨hd, -, hn⟩ := hr x hx
  have a1 : (lo : ℝ) < √(x : ℝ) := Real.lt_sqrt_of_sq_lt (by rw [sq]; exact_mod_cast h1)
  have a2 : √(x : ℝ) < hi := by
    rw [Real.sqrt_lt' (lt_of_le_of_ne (by exact_mod_cast h3) ?_)]
    · rw [sq]; exact_mod_cast h2
    · rintro h
      have h : hi = 0 := by exact_mod_cast h.symm
      rw [h] at h2; linarith
  have b := hn r (e1 ▸ fl_double lo)
  have c1 : |r - lo| ≤ |sqrt x - lo| := e1 ▸ fl_nearest lo hd
  have c2 : |r - hi| ≤ |sqrt x - hi| := e2 ▸ fl_nearest hi hd
  have c1' : |(r : ℝ) - lo| ≤ |(sqrt x : ℝ) - lo| := by exact_mod_cast c1
  have c2' : |(r : ℝ) - hi| ≤ |(sqrt x : ℝ) - hi| := by exact_mod_cast c2
  by_contra hne
  have hne' : (sqrt x : ℝ) ≠ r := by exact_mod_cast hne
  generalize (sqrt x : ℝ) = s at *
  generalize √(x : ℝ) = y at *
  generalize (r : ℝ) = r at *
  rw [← sq_le_sq] at b c1' c2'
  rcases lt_or_gt_of_ne hne' with h | h
  · nlinarith
  · nlinarith

/-- A rounded root has a relative error. -/
theorem root_error {sqrt : ℚ → ℚ} (hr : RoundsRoots sqrt) {x : ℚ} (hx : 2 ^ (-1000 : ℤ) ≤ x) :
    |(sqrt x : ℝ) - √(x : ℝ)| ≤ √(x : ℝ) * 2 ^ (-52 : ℤ) := by
  have hx0 : (0 : ℚ) < x := lt_of_lt_of_le (by positivity) hx
  obtain ⟨-, -, hn⟩ := hr x hx0.le
  have hy : (2 : ℝ) ^ (-500 : ℤ) ≤ √(x : ℝ) := by
    apply Real.le_sqrt_of_sq_le
    rw [← zpow_natCast, ← zpow_mul]
    have : ((2 ^ (-1000 : ℤ) : ℚ) : ℝ) ≤ (x : ℝ) := Rat.cast_le.mpr hx
    push_cast at this
    exact this
  have hy0 : (0 : ℝ) < √(x : ℝ) := lt_of_lt_of_le (by positivity) hy
  generalize √(x : ℝ) = y at *
  have key : ∀ ε : ℝ, 0 < ε → |(sqrt x : ℝ) - y| ≤ y * 2 ^ (-53 : ℤ) + 2 ^ (-1075 : ℤ) + ε := by
    intro ε hε
    obtain ⟨q, q1, q2⟩ := exists_rat_btwn (show max (y - ε) 0 < y from max_lt (by linarith) hy0)
    have b := hn (fl q) (fl_double q)
    have hq0 : (0 : ℝ) ≤ q := (le_max_right _ _).trans q1.le
    have hq0' : (0 : ℚ) ≤ q := by exact_mod_cast hq0
    have hq1 : y - ε ≤ q := (le_max_left _ _).trans q1.le
    have c := fl_error q
    rw [abs_of_nonneg hq0'] at c
    have c' : |(fl q : ℝ) - q| ≤ q * 2 ^ (-53 : ℤ) + 2 ^ (-1075 : ℤ) := by
      have : ((|fl q - q| : ℚ) : ℝ) ≤ ((q * 2 ^ (-53 : ℤ) + 2 ^ (-1075 : ℤ) : ℚ) : ℝ) := Rat.cast_le.mpr c
      push_cast at this
      exact this
    have hu : (0 : ℝ) < 2 ^ (-53 : ℤ) := by positivity
    generalize (2 : ℝ) ^ (-53 : ℤ) = u at *
    generalize (2 : ℝ) ^ (-1075 : ℤ) = η at *
    have t : |(fl q : ℝ) - y| ≤ |(fl q : ℝ) - q| + |(q : ℝ) - y| := abs_sub_le _ _ _
    have t2 : |(q : ℝ) - y| ≤ ε := by rw [abs_of_nonpos (by linarith)]; linarith
    have t3 : (q : ℝ) * u ≤ y * u := mul_le_mul_of_nonneg_right q2.le hu.le
    linarith
  have k := le_of_forall_pos_le_add key
  refine k.trans ?_
  have e1 : (2 : ℝ) ^ (-52 : ℤ) = 2 * 2 ^ (-53 : ℤ) := by norm_num
  have e2 : (2 : ℝ) ^ (-1075 : ℤ) ≤ 2 ^ (-500 : ℤ) * 2 ^ (-53 : ℤ) := by
    rw [← zpow_add₀ (by norm_num)]
    exact zpow_le_zpow_right₀ (by norm_num) (by norm_num)
  rw [e1]
  have hu : (0 : ℝ) < 2 ^ (-53 : ℤ) := by positivity
  have e3 := mul_le_mul_of_nonneg_right hy hu.le
  generalize (2 : ℝ) ^ (-53 : ℤ) = u at *
  generalize (2 : ℝ) ^ (-1075 : ℤ) = η at *
  generalize (2 : ℝ) ^ (-500 : ℤ) = ζ at *
  linarith

/-! ### The size of rounded results

All factors are powers of `g`, which is `1 / (1 - 2⁻⁵²)`. -/

/-- The factor of one rounding. -/
def g : ℚ := 1 / (1 - 2 ^ (-52 : ℤ))

theorem g_pos : 0 < g := by norm_num [g]
theorem g_one : 1 ≤ g := by norm_num [g]

/-- `z` is zero or not tiny. -/
def Far (k : ℤ) (z : ℚ) : Prop := z = 0 ∨ 2 ^ k ≤ |z|

theorem Far.mono {k l : ℤ} {z : ℚ} (h : Far k z) (hl : l ≤ k) : Far l z :=
  h.imp id fun h => (zpow_le_zpow_right₀ (by norm_num) hl).trans h

theorem Far.fl {k : ℤ} {z : ℚ} (h : Far k z) (hk : -1074 ≤ k) : Far k (fl z) := by
  rcases h with rfl | h
  · left; exact fl_id double_zero
  · right; exact fl_far hk h

theorem Far.mul {k l : ℤ} {y z : ℚ} (h : Far k y) (h' : Far l z) : Far (k + l) (y * z) := by
  rcases h with rfl | h
  · left; simp
  rcases h' with rfl | h'
  · left; simp
  right
  rw [abs_mul, zpow_add₀ (by norm_num)]
  exact mul_le_mul h h' (by positivity) (abs_nonneg _)

theorem Far.div {k : ℤ} {z : ℚ} (h : Far k z) {n : ℕ} (hn : 0 < n) (hN : n ≤ 2 ^ 40) : Far (k - 40) (z / n) := by
  rcases h with rfl | h
  · left; simp
  right
  have hn' : (0 : ℚ) < n := by exact_mod_cast hn
  have hN' : (n : ℚ) ≤ 2 ^ (40 : ℤ) := by exact_mod_cast hN
  rw [abs_div, abs_of_pos hn', le_div_iff₀ hn', zpow_sub₀ (by norm_num), div_mul_eq_mul_div, div_le_iff₀ (by positivity)]
  exact mul_le_mul h hN' hn'.le (abs_nonneg _)

theorem rel_g {z r w : ℚ} (hw : w = 2 ^ (-52 : ℤ)) (h : |r - z| ≤ |z| * w) : |r| ≤ g * |z| ∧ |z| ≤ g * |r| ∧ (0 ≤ z → 0 ≤ r) := by
  have h1 : 0 < w := by rw [hw]; positivity
  have h2 : w < 1 := by rw [hw]; norm_num
  have hg : g = 1 / (1 - w) := by rw [hw]; rfl
  have a1 : |r| ≤ |r - z| + |z| := by simpa using abs_add_le (r - z) z
  have a2 : |z| ≤ |r - z| + |r| := by
    have := abs_add_le (z - r) r
    rw [abs_sub_comm] at this
    simpa using this
  have hz := abs_nonneg z
  refine ⟨?_, ?_, fun h0 => ?_⟩
  · rw [hg, div_mul_eq_mul_div, one_mul, le_div_iff₀ (by linarith)]
    nlinarith
  · rw [hg, div_mul_eq_mul_div, one_mul, le_div_iff₀ (by linarith)]
    nlinarith
  · rw [abs_of_nonneg h0] at h
    have := (abs_le.mp h).1
    nlinarith

theorem far_g {z : ℚ} (h : Far (-1000) z) : |fl z| ≤ g * |z| ∧ |z| ≤ g * |fl z| ∧ (0 ≤ z → 0 ≤ fl z) := by
  refine rel_g rfl ?_
  rcases h with rfl | h
  · rw [fl_id double_zero]; simp
  have e := fl_error z
  have e1 : (2 : ℚ) ^ (-52 : ℤ) = 2 * 2 ^ (-53 : ℤ) := by norm_num
  have e2 : (2 : ℚ) ^ (-1075 : ℤ) ≤ 2 ^ (-1000 : ℤ) * 2 ^ (-53 : ℤ) := by
    rw [← zpow_add₀ (by norm_num)]
    exact zpow_le_zpow_right₀ (by norm_num) (by norm_num)
  have hu := two_zpow_pos (-53)
  rw [e1]
  generalize (2 : ℚ) ^ (-53 : ℤ) = u at *
  generalize (2 : ℚ) ^ (-1075 : ℤ) = η at *
  generalize (2 : ℚ) ^ (-1000 : ℤ) = ζ at *
  nlinarith [mul_le_mul_of_nonneg_right h hu.le]

theorem sum_g {x y : ℚ} (hx : IsDouble x) (hy : IsDouble y) : |fl (x + y)| ≤ g * |x + y| ∧ |x + y| ≤ g * |fl (x + y)| ∧ (0 ≤ x + y → 0 ≤ fl (x + y)) := by
  refine rel_g rfl ?_
  have h := sub_error hx (double_neg hy)
  rw [sub_neg_eq_add] at h
  refine h.trans (mul_le_mul_of_nonneg_left ?_ (abs_nonneg _))
  norm_num

theorem root_g {sqrt : ℚ → ℚ} (hr : RoundsRoots sqrt) {v : ℚ} (h0 : 0 ≤ v) (h : Far (-1000) v) :
    sqrt v ^ 2 ≤ g ^ 2 * v ∧ v ≤ g ^ 2 * sqrt v ^ 2 := by
  rcases h with rfl | h
  · obtain ⟨-, -, hn⟩ := hr 0 (le_refl _)
    have := hn 0 double_zero
    simp only [Rat.cast_zero, Real.sqrt_zero, sub_zero, abs_zero] at this
    have : (sqrt 0 : ℝ) = 0 := abs_eq_zero.mp (le_antisymm this (abs_nonneg _))
    have : sqrt 0 = 0 := by exact_mod_cast this
    rw [this]; simp
  · rw [abs_of_nonneg h0] at h
    have e := root_error hr h
    obtain ⟨-, hs0, -⟩ := hr v h0
    have hs0' : (0 : ℝ) ≤ sqrt v := by exact_mod_cast hs0
    have hy0 := Real.sqrt_nonneg (v : ℝ)
    have hy2 : √(v : ℝ) ^ 2 = v := Real.sq_sqrt (by exact_mod_cast h0)
    have hg : (g : ℝ) = 1 / (1 - 2 ^ (-52 : ℤ)) := by rw [g]; push_cast; rfl
    have h1 : (0 : ℝ) < 2 ^ (-52 : ℤ) := by positivity
    have h2 : (2 : ℝ) ^ (-52 : ℤ) < 1 := by norm_num
    generalize (2 : ℝ) ^ (-52 : ℤ) = w at *
    obtain ⟨e1, e2⟩ := abs_le.mp e
    have a1 : (sqrt v : ℝ) ≤ g * √(v : ℝ) := by
      rw [hg, div_mul_eq_mul_div, one_mul, le_div_iff₀ (by linarith)]
      nlinarith
    have a2 : √(v : ℝ) ≤ g * (sqrt v : ℝ) := by
      rw [hg, div_mul_eq_mul_div, one_mul, le_div_iff₀ (by linarith)]
      nlinarith
    constructor
    · have : (sqrt v : ℝ) ^ 2 ≤ (g : ℝ) ^ 2 * v := by
        rw [← hy2, ← mul_pow]
        exact pow_le_pow_left₀ hs0' a1 2
      exact_mod_cast this
    · have : (v : ℝ) ≤ (g : ℝ) ^ 2 * (sqrt v : ℝ) ^ 2 := by
        rw [← hy2, ← mul_pow]
        exact pow_le_pow_left₀ hy0 a2 2
      exact_mod_cast this

theorem g_pow {k : ℕ} (h : (k : ℚ) * 2 ^ (-51 : ℤ) ≤ 1) : g ^ k ≤ 1 + k * 2 ^ (-51 : ℤ) ∧ 1 - k * 2 ^ (-51 : ℤ) ≤ 1 / g ^ k := by
  have e : (2 : ℚ) ^ (-51 : ℤ) = 2 * 2 ^ (-52 : ℤ) := by norm_num
  have h1 : (0 : ℚ) < 2 ^ (-52 : ℤ) := by positivity
  have h2 : (2 : ℚ) ^ (-52 : ℤ) < 1 := by norm_num
  have hg : g = 1 / (1 - 2 ^ (-52 : ℤ)) := rfl
  rw [e] at h ⊢
  generalize (2 : ℚ) ^ (-52 : ℤ) = w at *
  have b : 1 - (k : ℚ) * w ≤ (1 - w) ^ k := by
    have := one_add_mul_le_pow (show (-2 : ℚ) ≤ -w by linarith) k
    rw [← sub_eq_add_neg] at this
    linarith
  have hk : (0 : ℚ) ≤ k := by positivity
  have hp : (0 : ℚ) < (1 - w) ^ k := pow_pos (by linarith) k
  have hgk : g ^ k = 1 / (1 - w) ^ k := by rw [hg, div_pow, one_pow]
  constructor
  · rw [hgk, div_le_iff₀ hp]
    nlinarith [mul_nonneg hk h1.le, mul_nonneg (mul_nonneg hk h1.le) (sub_nonneg.mpr h)]
  · rw [hgk, one_div_one_div]
    nlinarith [mul_nonneg hk h1.le]

/-! ### Deviations are not tiny -/

/-- Floats that are zero or at least 2⁻³⁰⁰ in size. -/
def Usual (seq : List ℚ) : Prop := seq ≠ [] ∧ seq.length ≤ 2 ^ 40 ∧ ∀ x ∈ seq, IsDouble x ∧ Far (-300) x

theorem double_gap {x u : ℚ} (hx : IsDouble x) (hu : IsDouble u) (h0 : x ≠ 0) (hne : x ≠ u) : |x| * 2 ^ (-54 : ℤ) ≤ |x - u| := by
  by_contra hc
  push Not at hc
  obtain ⟨m, e, hm, -, hxe⟩ := hx
  obtain ⟨m', e', hm', -, hue⟩ := hu
  have hp : 0 < |x| := abs_pos.mpr h0
  have l1 := Int.zpow_log_le_self (b := 2) (r := |x|) (by norm_num) hp
  have l2 := Int.lt_zpow_succ_log_self (b := 2) (by norm_num) |x|
  generalize Int.log 2 |x| = L at *
  push_cast at l1 l2
  have hL : (2 : ℚ) ^ L = 2 * 2 ^ (L - 53 + 52) := by
    rw [show L = (L - 53 + 52) + 1 by ring, zpow_add_one₀ (by norm_num)]
    ring_nf
  have hu : (2 : ℚ) ^ (L - 53 + 52) ≤ |u| := by
    have : |x| ≤ |x - u| + |u| := by simpa using abs_add_le (x - u) u
    have h2 : |x| * 2 ^ (-54 : ℤ) ≤ |x| * (1 / 2) := mul_le_mul_of_nonneg_left (by norm_num) hp.le
    have h3 := hc.trans_le h2
    rw [hL] at l1
    linarith
  obtain ⟨j, hj⟩ := double_grid hm hxe (E := L - 53) (Or.inr (by rw [hL] at l1; linarith [two_zpow_pos (L - 53 + 52)]))
  obtain ⟨j', hj'⟩ := double_grid hm' hue (E := L - 53) (Or.inr hu)
  have hd : x - u = ((j - j' : ℤ) : ℚ) * 2 ^ (L - 53) := by rw [hj, hj']; push_cast; ring
  have hjne : j - j' ≠ 0 := by
    intro h
    rw [h] at hd
    simp at hd
    exact hne (sub_eq_zero.mp hd)
  have hj1 : (1 : ℚ) ≤ |((j - j' : ℤ) : ℚ)| := by
    rw [← Int.cast_abs]
    exact_mod_cast Int.one_le_abs hjne
  have hge : (2 : ℚ) ^ (L - 53) ≤ |x - u| := by
    rw [hd, abs_mul, abs_of_pos (two_zpow_pos (L - 53))]
    nlinarith [two_zpow_pos (L - 53)]
  have hlt : |x| * 2 ^ (-54 : ℤ) < 2 ^ (L - 53) := by
    have : (2 : ℚ) ^ (L - 53) = 2 ^ (L + 1) * 2 ^ (-54 : ℤ) := by
      rw [← zpow_add₀ (by norm_num)]; congr 1; ring
    rw [this]
    exact mul_lt_mul_of_pos_right l2 (by positivity)
  linarith

theorem usual_grid {x : ℚ} (h : IsDouble x) (hf : Far (-300) x) : ∃ j : ℤ, x = j * 2 ^ (-352 : ℤ) := by
  rcases hf with rfl | hf
  · exact ⟨0, by simp⟩
  · obtain ⟨m, e, hm, -, hxe⟩ := h
    exact double_grid hm hxe (Or.inr (le_trans (zpow_le_zpow_right₀ (by norm_num) (by norm_num)) hf))

theorem usual_sum {seq : List ℚ} (h : ∀ x ∈ seq, IsDouble x ∧ Far (-300) x) : ∃ j : ℤ, seq.sum = j * 2 ^ (-352 : ℤ) := by
  induction seq with
  | nil => exact ⟨0, by simp⟩
  | cons a seq ih =>
    obtain ⟨j, hj⟩ := ih (fun x hx => h x (List.mem_cons_of_mem _ hx))
    obtain ⟨i, hi⟩ := usual_grid (h a (by simp)).1 (h a (by simp)).2
    exact ⟨i + j, by rw [List.sum_cons, hi, hj]; push_cast; ring⟩

theorem usual_dev {seq : List ℚ} (h : Usual seq) {u : ℚ} (hu : avg seq = .ok u) {x : ℚ} (hx : x ∈ seq) : Far (-400) (fl (x - u)) := by
  obtain ⟨hne, hN, hs⟩ := h
  have e := (avg_ok hne).symm.trans hu
  injection e with e
  have hud : IsDouble u := e ▸ fl_double _
  obtain ⟨hxd, hxf⟩ := hs x hx
  refine Far.fl ?_ (by norm_num)
  by_cases hxu : x = u
  · left; rw [hxu, sub_self]
  rcases hxf with rfl | hxf
  · have hsum : Far (-352) seq.sum := by
      obtain ⟨j, hj⟩ := usual_sum hs
      by_cases h0 : j = 0
      · left; rw [hj, h0]; simp
      · right
        rw [hj, abs_mul, abs_of_pos (two_zpow_pos (-352)), ← Int.cast_abs]
        have : (1 : ℚ) ≤ ((|j| : ℤ) : ℚ) := by exact_mod_cast Int.one_le_abs h0
        nlinarith [two_zpow_pos (-352)]
    have : Far (-352 - 40) u := by
      rw [← e]
      exact Far.fl (Far.div (Far.fl hsum (by norm_num)) (List.length_pos_iff.mpr hne) hN) (by norm_num)
    rw [zero_sub]
    rcases this with h | h
    · left; rw [h]; simp
    · right; rw [abs_neg]; exact le_trans (zpow_le_zpow_right₀ (by norm_num) (by norm_num)) h
  · right
    have h0 : x ≠ 0 := by
      rintro rfl
      rw [abs_zero] at hxf
      linarith [two_zpow_pos (-300)]
    refine le_trans ?_ (double_gap hxd hud h0 hxu)
    refine le_trans ?_ (mul_le_mul_of_nonneg_right hxf (by positivity))
    rw [← zpow_add₀ (by norm_num)]
    exact zpow_le_zpow_right₀ (by norm_num) (by norm_num)

/-! ### Sums of rounded products -/

theorem accum_le {qs : List ℚ} (h : ∀ q ∈ qs, IsDouble q) {c : ℚ} (hc : IsDouble c) :
    |qs.foldl (fun c q => fl (c + q)) c| ≤ g ^ qs.length * (|c| + (qs.map (|·|)).sum) := by
  induction qs generalizing c with
  | nil => simp
  | cons q qs ih =>
    have i := ih (fun x hx => h x (List.mem_cons_of_mem _ hx)) (fl_double (c + q))
    have hq := (sum_g hc (h q (by simp))).1
    have t := abs_add_le c q
    simp only [List.foldl_cons, List.length_cons, List.map_cons, List.sum_cons]
    refine i.trans ?_
    rw [pow_succ, mul_assoc]
    refine mul_le_mul_of_nonneg_left ?_ (pow_nonneg g_pos.le _)
    have hS : 0 ≤ (qs.map (|·|)).sum := List.sum_nonneg (by
      intro y hy
      obtain ⟨x, -, rfl⟩ := List.mem_map.mp hy
      exact abs_nonneg x)
    generalize (qs.map (|·|)).sum = S at *
    nlinarith [g_one, g_pos, mul_le_mul_of_nonneg_left t g_pos.le, mul_le_mul_of_nonneg_right g_one hS]

theorem accum_ge {qs : List ℚ} (h : ∀ q ∈ qs, IsDouble q ∧ 0 ≤ q) {c : ℚ} (hc : IsDouble c) (h0 : 0 ≤ c) :
    0 ≤ qs.foldl (fun c q => fl (c + q)) c ∧ c + qs.sum ≤ g ^ qs.length * qs.foldl (fun c q => fl (c + q)) c := by
  induction qs generalizing c with
  | nil => simp [h0]
  | cons q qs ih =>
    obtain ⟨hqd, hq0⟩ := h q (by simp)
    obtain ⟨-, s2, s3⟩ := sum_g hc hqd
    have s3 := s3 (by linarith)
    obtain ⟨i1, i2⟩ := ih (fun x hx => h x (List.mem_cons_of_mem _ hx)) (fl_double (c + q)) s3
    simp only [List.foldl_cons, List.length_cons, List.sum_cons]
    refine ⟨i1, ?_⟩
    rw [abs_of_nonneg (by linarith), abs_of_nonneg s3] at s2
    have hS : 0 ≤ qs.sum := List.sum_nonneg (fun x hx => (h x (List.mem_cons_of_mem _ hx)).2)
    generalize qs.foldl (fun c q => fl (c + q)) (fl (c + q)) = F at *
    generalize fl (c + q) = d at *
    have : g * (d + qs.sum) ≤ g * (g ^ qs.length * F) := mul_le_mul_of_nonneg_left i2 g_pos.le
    rw [pow_succ]
    nlinarith [mul_le_mul_of_nonneg_right g_one hS]

/-- The inequality of Cauchy and Schwarz. -/
theorem cauchy (a b : List ℚ) (h : a.length = b.length) :
    (List.zipWith (fun a b => |a * b|) a b).sum ^ 2 ≤ (a.map (· ^ 2)).sum * (b.map (· ^ 2)).sum := by
  induction a generalizing b with
  | nil => simp
  | cons a as ih =>
    cases b with
    | nil => simp at h
    | cons b bs =>
      have i := ih bs (by simpa using h)
      simp only [List.zipWith_cons_cons, List.sum_cons, List.map_cons]
      have hA : 0 ≤ (as.map (· ^ 2)).sum := List.sum_nonneg (by
        intro y hy
        obtain ⟨x, -, rfl⟩ := List.mem_map.mp hy
        positivity)
      have hB : 0 ≤ (bs.map (· ^ 2)).sum := List.sum_nonneg (by
        intro y hy
        obtain ⟨x, -, rfl⟩ := List.mem_map.mp hy
        positivity)
      generalize (List.zipWith (fun a b => |a * b|) as bs).sum = S at *
      generalize (as.map (· ^ 2)).sum = A at *
      generalize (bs.map (· ^ 2)).sum = B at *
      have k : 2 * (|a * b| * S) ≤ a ^ 2 * B + b ^ 2 * A := by
        refine le_of_sq_le_sq ?_ (by positivity)
        have h1 : (|a * b| * S) ^ 2 ≤ (a * b) ^ 2 * (A * B) := by
          rw [mul_pow, sq_abs]
          exact mul_le_mul_of_nonneg_left i (by positivity)
        nlinarith [sq_nonneg (a ^ 2 * B - b ^ 2 * A)]
      have := sq_abs (a * b)
      nlinarith

/-! ### Variance and covariance -/

theorem sum_far {l : List ℚ} {k : ℤ} (h : ∀ x ∈ l, 0 ≤ x ∧ Far k x) : 0 ≤ l.sum ∧ Far k l.sum := by
  induction l with
  | nil => exact ⟨le_refl _, Or.inl rfl⟩
  | cons a l ih =>
    obtain ⟨i1, i2⟩ := ih (fun x hx => h x (List.mem_cons_of_mem _ hx))
    obtain ⟨a1, a2⟩ := h a (by simp)
    rw [List.sum_cons]
    refine ⟨by linarith, ?_⟩
    rcases a2 with rfl | a2
    · rwa [zero_add]
    · right
      rw [abs_of_nonneg a1] at a2
      rw [abs_of_nonneg (by linarith)]
      linarith

theorem sum_map_le {α : Type} {l : List α} {f f' : α → ℚ} {c : ℚ} (h : ∀ x ∈ l, f x ≤ c * f' x) : (l.map f).sum ≤ c * (l.map f').sum := by
  induction l with
  | nil => simp
  | cons a l ih =>
    have i := ih (fun x hx => h x (List.mem_cons_of_mem _ hx))
    have a1 := h a (by simp)
    simp only [List.map_cons, List.sum_cons]
    linarith

/-- The variance is the mean square of the rounded deviations, up to three roundings. -/
theorem var_g {seq : List ℚ} (h : Usual seq) {u : ℚ} (hu : avg seq = .ok u) : ∃ v, var seq = .ok v ∧ 0 ≤ v ∧ Far (-840) v ∧
    v ≤ g ^ 3 * ((seq.map (fun x => fl (x - u) ^ 2)).sum / seq.length) ∧ (seq.map (fun x => fl (x - u) ^ 2)).sum / seq.length ≤ g ^ 3 * v := by
  obtain ⟨u', hu', hv⟩ := var_ok h.1
  rw [hu] at hu'
  injection hu' with hu'
  subst hu'
  have hn0 : 0 < seq.length := List.length_pos_iff.mpr h.1
  have hn : (0 : ℚ) < seq.length := by exact_mod_cast hn0
  have hf : ∀ x ∈ seq, Far (-800) (fl (x - u) * fl (x - u)) := fun x hx => by
    simpa using (usual_dev h hu hx).mul (usual_dev h hu hx)
  have t1 : ∀ x ∈ seq, fl (fl (x - u) * fl (x - u)) ≤ g * fl (x - u) ^ 2 ∧ fl (x - u) ^ 2 ≤ g * fl (fl (x - u) * fl (x - u)) ∧
      0 ≤ fl (fl (x - u) * fl (x - u)) := by
    intro x hx
    obtain ⟨f1, f2, f3⟩ := far_g ((hf x hx).mono (by norm_num))
    have f3 := f3 (mul_self_nonneg _)
    rw [abs_of_nonneg f3, abs_of_nonneg (mul_self_nonneg _)] at f1 f2
    rw [sq]
    exact ⟨f1, f2, f3⟩
  have s1 := sum_map_le (fun x hx => (t1 x hx).1)
  have s2 := sum_map_le (fun x hx => (t1 x hx).2.1)
  obtain ⟨s3, s4⟩ := sum_far (l := seq.map (fun x => fl (fl (x - u) * fl (x - u)))) (k := -800) (by
    intro y hy
    obtain ⟨x, hx, rfl⟩ := List.mem_map.mp hy
    exact ⟨(t1 x hx).2.2, (hf x hx).fl (by norm_num)⟩)
  refine ⟨_, hv, ?_⟩
  generalize (seq.map (fun x => fl (fl (x - u) * fl (x - u)))).sum = T at *
  generalize (seq.map (fun x => fl (x - u) ^ 2)).sum = S at *
  obtain ⟨a1, a2, a3⟩ := far_g (s4.mono (by norm_num : (-1000 : ℤ) ≤ _))
  have a3 := a3 s3
  rw [abs_of_nonneg s3, abs_of_nonneg a3] at a1 a2
  have d1 := (s4.fl (by norm_num)).div hn0 h.2.1
  obtain ⟨b1, b2, b3⟩ := far_g (d1.mono (by norm_num : (-1000 : ℤ) ≤ _))
  have d0 : 0 ≤ fl T / seq.length := div_nonneg a3 hn.le
  have b3 := b3 d0
  rw [abs_of_nonneg d0, abs_of_nonneg b3] at b1 b2
  refine ⟨b3, (d1.fl (by norm_num)).mono (by norm_num), ?_, ?_⟩
  · refine b1.trans ?_
    have : g ^ 3 * (S / seq.length) = g * (g ^ 2 * S / seq.length) := by ring
    rw [this]
    refine mul_le_mul_of_nonneg_left ?_ g_pos.le
    rw [div_le_div_iff_of_pos_right hn]
    nlinarith [g_pos]
  · have : S / seq.length ≤ g ^ 2 * (fl T / seq.length) := by
      rw [← mul_div_assoc, div_le_div_iff_of_pos_right hn]
      nlinarith [g_pos]
    refine this.trans ?_
    have : g ^ 3 * fl (fl T / seq.length) = g ^ 2 * (g * fl (fl T / seq.length)) := by ring
    rw [this]
    exact mul_le_mul_of_nonneg_left b2 (pow_nonneg g_pos.le _)

/-- The terms that `covar` adds. -/
def terms (x y : List ℚ) (u v : ℚ) : List ℚ := List.zipWith (fun a b => fl (fl (fl (a - u) * fl (b - v)) / x.length)) x y

theorem covarLoop_ok {x y : List ℚ} (hl : x.length = y.length) (hx : x ≠ []) (u v : ℚ) :
    covarLoop x y x.length u v = .ok ((terms x y u v).foldl (fun c q => fl (c + q)) 0) := by
  have hn : (x.length : ℚ) ≠ 0 := by
    have := List.length_pos_iff.mpr hx
    exact_mod_cast this.ne'
  have hlen : (terms x y u v).length = x.length := by simp [terms, hl]
  unfold covarLoop
  suffices h : ∀ k ≤ x.length, (List.range k).foldlM (fun (cov : ℚ) (i : Nat) => do
      let x' ← pyIndex x i
      let a := fl (x' - u)
      let y' ← pyIndex y i
      let b := fl (y' - v)
      let q ← div (fl (a * b)) x.length
      return fl (cov + q)) 0 = (.ok (((terms x y u v).take k).foldl (fun c q => fl (c + q)) 0) : Py ℚ) by
    have := h _ (le_refl _)
    rwa [← hlen, List.take_length, hlen] at this
  intro k hk
  induction k with
  | zero => simp; rfl
  | succ k ih =>
    rw [List.range_succ, List.foldlM_append, ih (by omega)]
    have e1 := Buffer.pyIndex_nat x k _ (List.getElem?_eq_getElem (by omega))
    have e2 := Buffer.pyIndex_nat y k _ (List.getElem?_eq_getElem (by omega))
    simp only [bind, Except.bind, List.foldlM_cons, List.foldlM_nil, e1, e2, div, if_neg hn, pure, Except.pure]
    rw [List.take_add_one, List.getElem?_eq_getElem (by omega)]
    simp [terms]

theorem covar_ok {x y : List ℚ} (hl : x.length = y.length) (hx : x ≠ []) {u v : ℚ} (hu : avg x = .ok u) (hv : avg y = .ok v) :
    covar x y = .ok ((terms x y u v).foldl (fun c q => fl (c + q)) 0) := by
  simp only [covar, hu, hv, bind, Except.bind, covarLoop_ok hl hx]

theorem term_g {a b : ℚ} (ha : Far (-400) a) (hb : Far (-400) b) {n : ℕ} (hn : 0 < n) (hN : n ≤ 2 ^ 40) :
    |fl (fl (a * b) / n)| ≤ g ^ 2 * |a * b| / n ∧ |a * b| / n ≤ g ^ 2 * |fl (fl (a * b) / n)| ∧ (0 ≤ a * b → 0 ≤ fl (fl (a * b) / n)) := by
  have hn' : (0 : ℚ) < n := by exact_mod_cast hn
  have f := ha.mul hb
  obtain ⟨a1, a2, a3⟩ := far_g (f.mono (by norm_num : (-1000 : ℤ) ≤ _))
  obtain ⟨b1, b2, b3⟩ := far_g (((f.fl (by norm_num)).div hn hN).mono (by norm_num : (-1000 : ℤ) ≤ _))
  rw [abs_div, abs_of_pos hn'] at b1 b2
  refine ⟨?_, ?_, fun h => b3 (div_nonneg (a3 h) hn'.le)⟩
  · refine b1.trans ?_
    rw [← mul_div_assoc, div_le_div_iff_of_pos_right hn']
    nlinarith [g_pos]
  · have : |a * b| / n ≤ g * (|fl (a * b)| / n) := by
      rw [← mul_div_assoc, div_le_div_iff_of_pos_right hn']
      exact a2
    refine this.trans ?_
    rw [sq, mul_assoc]
    exact mul_le_mul_of_nonneg_left b2 g_pos.le

theorem zip_le {x y : List ℚ} {f f' : ℚ → ℚ → ℚ} {c : ℚ} (h : ∀ a ∈ x, ∀ b ∈ y, |f a b| ≤ c * f' a b) :
    ((List.zipWith f x y).map (|·|)).sum ≤ c * (List.zipWith f' x y).sum := by
  induction x generalizing y with
  | nil => simp
  | cons a x ih =>
    cases y with
    | nil => simp
    | cons b y =>
      have i := ih (y := y) (fun a ha b hb => h a (List.mem_cons_of_mem _ ha) b (List.mem_cons_of_mem _ hb))
      have a1 := h a (by simp) b (by simp)
      simp only [List.zipWith_cons_cons, List.map_cons, List.sum_cons]
      linarith

theorem terms_double (x y : List ℚ) (u v : ℚ) : ∀ q ∈ terms x y u v, IsDouble q := by
  intro q hq
  rw [terms, List.mem_iff_getElem] at hq
  obtain ⟨i, hi, rfl⟩ := hq
  rw [List.getElem_zipWith]
  exact fl_double _

/-- The covariance is at most the product of the mean deviations, up to the roundings of its sum. -/
theorem covar_le {x y : List ℚ} (hx : Usual x) (hy : Usual y) (hl : x.length = y.length) {u v : ℚ} (hu : avg x = .ok u) (hv : avg y = .ok v) :
    ∃ c, covar x y = .ok c ∧ c ^ 2 ≤ g ^ (2 * (x.length + 2)) *
      ((x.map (fun a => fl (a - u) ^ 2)).sum / x.length * ((y.map (fun b => fl (b - v) ^ 2)).sum / y.length)) := by
  refine ⟨_, covar_ok hl hx.1 hu hv, ?_⟩
  have hn0 : 0 < x.length := List.length_pos_iff.mpr hx.1
  have hn : (0 : ℚ) < x.length := by exact_mod_cast hn0
  have a1 := accum_le (terms_double x y u v) double_zero
  have a2 := zip_le (x := x) (y := y) (f := fun a b => fl (fl (fl (a - u) * fl (b - v)) / x.length)) (f' := fun a b => |fl (a - u) * fl (b - v)|)
    (c := g ^ 2 / x.length) (fun a ha b hb => by
      have := (term_g (usual_dev hx hu ha) (usual_dev hy hv hb) hn0 hx.2.1).1
      refine this.trans (le_of_eq ?_)
      ring)
  have a3 := cauchy (x.map (fun a => fl (a - u))) (y.map (fun b => fl (b - v))) (by simpa using hl)
  rw [List.zipWith_map, List.map_map, List.map_map] at a3
  change (List.zipWith (fun a b => |fl (a - u) * fl (b - v)|) x y).sum ^ 2 ≤ (x.map (fun a => fl (a - u) ^ 2)).sum * (y.map (fun b => fl (b - v) ^ 2)).sum at a3
  change ((terms x y u v).map (|·|)).sum ≤ _ at a2
  rw [abs_zero, zero_add] at a1
  have hlen : (terms x y u v).length = x.length := by simp [terms, hl]
  rw [hlen] at a1
  rw [← hl]
  generalize (terms x y u v).foldl (fun c q => fl (c + q)) 0 = C at *
  generalize ((terms x y u v).map (|·|)).sum = T at *
  generalize (List.zipWith (fun a b => |fl (a - u) * fl (b - v)|) x y).sum = Z at *
  generalize (x.map (fun a => fl (a - u) ^ 2)).sum = A at *
  generalize (y.map (fun b => fl (b - v) ^ 2)).sum = B at *
  have hgn : 0 < g ^ x.length := pow_pos g_pos _
  have b1 : |C| ≤ g ^ (x.length + 2) * (Z / x.length) := by
    refine a1.trans ?_
    have : g ^ (x.length + 2) * (Z / x.length) = g ^ x.length * (g ^ 2 / x.length * Z) := by rw [pow_add]; ring
    rw [this]
    exact mul_le_mul_of_nonneg_left a2 hgn.le
  have b2 : C ^ 2 ≤ (g ^ (x.length + 2) * (Z / x.length)) ^ 2 := by
    rw [← sq_abs C]
    exact pow_le_pow_left₀ (abs_nonneg _) b1 2
  refine b2.trans ?_
  rw [mul_pow, ← pow_mul, mul_comm (x.length + 2) 2, div_pow, div_mul_div_comm, ← sq]
  refine mul_le_mul_of_nonneg_left ?_ (pow_nonneg g_pos.le _)
  rw [div_le_div_iff_of_pos_right (by positivity)]
  exact a3

/-- The covariance of a sequence with itself is at least its mean square deviation, up to the roundings of its sum. -/
theorem covar_self_ge {x : List ℚ} (hx : Usual x) {u : ℚ} (hu : avg x = .ok u) :
    ∃ c, covar x x = .ok c ∧ 0 ≤ c ∧ (x.map (fun a => fl (a - u) ^ 2)).sum / x.length ≤ g ^ (x.length + 2) * c := by
  refine ⟨_, covar_ok rfl hx.1 hu hu, ?_⟩
  have hn0 : 0 < x.length := List.length_pos_iff.mpr hx.1
  have hn : (0 : ℚ) < x.length := by exact_mod_cast hn0
  have ht : terms x x u u = x.map (fun a => fl (fl (fl (a - u) * fl (a - u)) / x.length)) := by
    rw [terms]
    generalize (x.length : ℚ) = n
    induction x with
    | nil => rfl
    | cons a x ih => simp
  have hlen : (terms x x u u).length = x.length := by simp [terms]
  have t : ∀ a ∈ x, |fl (a - u) * fl (a - u)| / x.length ≤ g ^ 2 * |fl (fl (fl (a - u) * fl (a - u)) / x.length)| ∧
      0 ≤ fl (fl (fl (a - u) * fl (a - u)) / x.length) := by
    intro a ha
    obtain ⟨-, h2, h3⟩ := term_g (usual_dev hx hu ha) (usual_dev hx hu ha) hn0 hx.2.1
    exact ⟨h2, h3 (mul_self_nonneg _)⟩
  have hs : (x.map (fun a => fl (a - u) ^ 2 / x.length)).sum ≤ g ^ 2 * (x.map (fun a => fl (fl (fl (a - u) * fl (a - u)) / x.length))).sum := by
    refine sum_map_le (fun a ha => ?_)
    obtain ⟨h2, h3⟩ := t a ha
    rw [abs_of_nonneg (mul_self_nonneg _), abs_of_nonneg h3, ← sq] at h2
    rwa [← sq]
  obtain ⟨c1, c2⟩ := accum_ge (qs := terms x x u u) (fun q hq => ⟨terms_double x x u u q hq, by
    rw [ht] at hq
    obtain ⟨a, ha, rfl⟩ := List.mem_map.mp hq
    exact (t a ha).2⟩) double_zero (le_refl _)
  refine ⟨c1, ?_⟩
  rw [hlen, zero_add] at c2
  rw [← ht] at hs
  have hd : (x.map (fun a => fl (a - u) ^ 2 / x.length)).sum = (x.map (fun a => fl (a - u) ^ 2)).sum / x.length := by
    rw [div_eq_mul_inv, ← List.sum_map_mul_right]
    rfl
  rw [hd] at hs
  refine hs.trans ?_
  rw [pow_add, mul_comm (g ^ x.length), mul_assoc]
  exact mul_le_mul_of_nonneg_left c2 (pow_nonneg g_pos.le _)

theorem stdDev_ok {sqrt : ℚ → ℚ} {x : List ℚ} {v : ℚ} (hv : var x = .ok v) (h0 : 0 ≤ v) : stdDev sqrt x = .ok (sqrt v) := by
  simp only [stdDev, hv, bind, Except.bind, if_neg (not_lt.mpr h0)]

/-- The deviation of a sequence that is not constant is a float that is not tiny. -/
theorem dev_pos {sqrt : ℚ → ℚ} (hr : RoundsRoots sqrt) {x : List ℚ} (hx : Usual x) (hne : ∃ a ∈ x, ∃ b ∈ x, a ≠ b) {u : ℚ} (hu : avg x = .ok u) :
    ∃ v, var x = .ok v ∧ 0 ≤ v ∧ 2 ^ (-421 : ℤ) ≤ sqrt v ∧ 0 < (x.map (fun a => fl (a - u) ^ 2)).sum / x.length ∧
    (x.map (fun a => fl (a - u) ^ 2)).sum / x.length ≤ g ^ 5 * sqrt v ^ 2 ∧ sqrt v ^ 2 ≤ g ^ 5 * ((x.map (fun a => fl (a - u) ^ 2)).sum / x.length) := by
  obtain ⟨v, hv, h0, hf, v1, v2⟩ := var_g hx hu
  have hn : (0 : ℚ) < x.length := by exact_mod_cast List.length_pos_iff.mpr hx.1
  have hud : IsDouble u := by
    have e := (avg_ok hx.1).symm.trans hu
    injection e with e
    exact e ▸ fl_double _
  have hV : 0 < (x.map (fun a => fl (a - u) ^ 2)).sum / x.length := by
    refine div_pos ?_ hn
    obtain ⟨a, ha, hau⟩ : ∃ a ∈ x, a ≠ u := by
      obtain ⟨a, ha, b, hb, hab⟩ := hne
      by_cases h : a = u
      · exact ⟨b, hb, fun h' => hab (h.trans h'.symm)⟩
      · exact ⟨a, ha, h⟩
    have hz : fl (a - u) ≠ 0 := fun h => hau ((C154_sides_do_not_vanish u a hud (hx.2.2 a ha).1).mp h).symm
    refine lt_of_lt_of_le (pow_pos (abs_pos.mpr hz) 2) ?_
    rw [sq_abs]
    exact List.single_le_sum (by
      intro y hy
      obtain ⟨b, -, rfl⟩ := List.mem_map.mp hy
      positivity) _ (List.mem_map.mpr ⟨a, ha, rfl⟩)
  generalize (x.map (fun a => fl (a - u) ^ 2)).sum / x.length = V at *
  have g3 : 0 < g ^ 3 := pow_pos g_pos 3
  have hv0 : v ≠ 0 := by
    rintro rfl
    linarith
  obtain ⟨r1, r2⟩ := root_g hr h0 (hf.mono (by norm_num : (-1000 : ℤ) ≤ _))
  obtain ⟨-, s0, -⟩ := hr v h0
  refine ⟨v, hv, h0, ?_, hV, ?_, ?_⟩
  · rcases hf with hf | hf
    · exact absurd hf hv0
    rw [abs_of_nonneg h0] at hf
    refine le_of_sq_le_sq ?_ s0
    have hg2 : g ^ 2 ≤ 4 := by norm_num [g]
    have : v ≤ 4 * sqrt v ^ 2 := r2.trans (mul_le_mul_of_nonneg_right hg2 (by positivity))
    have e : ((2 : ℚ) ^ (-421 : ℤ)) ^ 2 = 2 ^ (-840 : ℤ) / 4 := by
      rw [← zpow_natCast, ← zpow_mul]
      have : (2 : ℚ) ^ (-840 : ℤ) = 2 ^ (-421 * ((2 : ℕ) : ℤ)) * 2 ^ (2 : ℤ) := by
        rw [← zpow_add₀ (by norm_num)]; norm_num
      rw [this]; norm_num
    rw [e]
    linarith
  · have : g ^ 5 * sqrt v ^ 2 = g ^ 3 * (g ^ 2 * sqrt v ^ 2) := by ring
    rw [this]
    exact v2.trans (mul_le_mul_of_nonneg_left r2 g3.le)
  · have : g ^ 5 * V = g ^ 2 * (g ^ 3 * V) := by ring
    rw [this]
    exact r1.trans (mul_le_mul_of_nonneg_left v1 (pow_nonneg g_pos.le 2))

theorem far_prod {d e : ℚ} (hd : 2 ^ (-421 : ℤ) ≤ d) (he : 2 ^ (-421 : ℤ) ≤ e) : fl (d * e) ≤ g * (d * e) ∧ d * e ≤ g * fl (d * e) ∧ 0 < fl (d * e) := by
  have hd0 : 0 < d := lt_of_lt_of_le (by positivity) hd
  have he0 : 0 < e := lt_of_lt_of_le (by positivity) he
  have f : Far (-421) d := Or.inr (by rwa [abs_of_pos hd0])
  have f' : Far (-421) e := Or.inr (by rwa [abs_of_pos he0])
  obtain ⟨a1, a2, a3⟩ := far_g ((f.mul f').mono (by norm_num : (-1000 : ℤ) ≤ _))
  have hp : 0 < d * e := mul_pos hd0 he0
  have a3 := a3 hp.le
  rw [abs_of_pos hp, abs_of_nonneg a3] at a1 a2
  refine ⟨a1, a2, lt_of_le_of_ne a3 fun h => ?_⟩
  rw [← h] at a2
  linarith

theorem corr_ok {sqrt : ℚ → ℚ} {x y : List ℚ} {c v w : ℚ} (hc : covar x y = .ok c) (hv : var x = .ok v) (h0 : 0 ≤ v) (hw : var y = .ok w)
    (h0' : 0 ≤ w) : corr sqrt x y = div c (fl (sqrt v * sqrt w)) := by
  simp only [corr, hc, stdDev_ok hv h0, stdDev_ok hw h0', bind, Except.bind]

/-- C168: the correlation of two columns that are not constant exists and leaves the range from -1 to 1 by a few roundings at most. -/
theorem C168_range_partial (sqrt : ℚ → ℚ) (hr : RoundsRoots sqrt) (x y : List ℚ) (hx : Usual x) (hy : Usual y) (hl : x.length = y.length)
    (hnx : ∃ a ∈ x, ∃ b ∈ x, a ≠ b) (hny : ∃ a ∈ y, ∃ b ∈ y, a ≠ b) :
    ∃ r, corr sqrt x y = .ok r ∧ |r| ≤ 1 + (x.length + 9) * 2 ^ (-51 : ℤ) := by
  have hu := avg_ok hx.1
  have hv := avg_ok hy.1
  obtain ⟨c, hc, hc2⟩ := covar_le hx hy hl hu hv
  obtain ⟨v, v1, v2, v3, v4, v5, -⟩ := dev_pos hr hx hnx hu
  obtain ⟨w, w1, w2, w3, w4, w5, -⟩ := dev_pos hr hy hny hv
  obtain ⟨-, p2, p3⟩ := far_prod v3 w3
  rw [corr_ok hc v1 v2 w1 w2, div_ok p3.ne']
  refine ⟨_, rfl, ?_⟩
  generalize (x.map (fun a => fl (a - fl (fl x.sum / x.length)) ^ 2)).sum / x.length = V at *
  generalize (y.map (fun a => fl (a - fl (fl y.sum / y.length)) ^ 2)).sum / y.length = W at *
  generalize fl (sqrt v * sqrt w) = D at *
  have hd0 : 0 < sqrt v := lt_of_lt_of_le (by positivity) v3
  have he0 : 0 < sqrt w := lt_of_lt_of_le (by positivity) w3
  generalize sqrt v = d at *
  generalize sqrt w = e at *
  have g2n : 0 < g ^ (2 * (x.length + 2)) := pow_pos g_pos _
  have gn : 0 < g ^ (x.length + 8) := pow_pos g_pos _
  have k1 : V * W ≤ g ^ 10 * (d * e) ^ 2 := by
    refine (mul_le_mul v5 w5 w4.le (mul_nonneg (pow_nonneg g_pos.le _) (by positivity))).trans (le_of_eq ?_)
    ring
  have k2 : (d * e) ^ 2 ≤ g ^ 2 * D ^ 2 := by
    rw [← mul_pow]
    exact pow_le_pow_left₀ (by positivity) p2 2
  have k3 : c ^ 2 ≤ (g ^ (x.length + 8) * D) ^ 2 := by
    refine hc2.trans ?_
    have : (g ^ (x.length + 8) * D) ^ 2 = g ^ (2 * (x.length + 2)) * (g ^ 10 * (g ^ 2 * D ^ 2)) := by ring
    rw [this]
    refine mul_le_mul_of_nonneg_left (k1.trans ?_) g2n.le
    exact mul_le_mul_of_nonneg_left k2 (pow_nonneg g_pos.le _)
  have k4 : |c / D| ≤ g ^ (x.length + 8) := by
    rw [abs_div, abs_of_pos p3, div_le_iff₀ p3]
    exact abs_le_of_sq_le_sq k3 (by positivity)
  have gm : 1 ≤ g ^ (x.length + 8) := one_le_pow₀ g_one
  have k5 : |fl (c / D)| ≤ g ^ (x.length + 9) := by
    have f : |fl (g ^ (x.length + 8))| ≤ g * |g ^ (x.length + 8)| := (far_g (Or.inr (by
      rw [abs_of_pos gn]
      refine le_trans ?_ gm
      exact zpow_le_one_of_nonpos₀ (by norm_num) (by norm_num)))).1
    rw [abs_of_pos gn] at f
    have f := (le_abs_self _).trans f
    obtain ⟨k6, k7⟩ := abs_le.mp k4
    have m1 := fl_mono k7
    have m2 := fl_mono k6
    rw [fl_neg] at m2
    rw [abs_le, show g ^ (x.length + 9) = g * g ^ (x.length + 8) by ring]
    constructor <;> linarith
  refine k5.trans ?_
  have hN : ((x.length + 9 : ℕ) : ℚ) * 2 ^ (-51 : ℤ) ≤ 1 := by
    have : ((x.length + 9 : ℕ) : ℚ) ≤ 2 ^ 51 := by
      have := hx.2.1
      exact_mod_cast (by omega : x.length + 9 ≤ 2 ^ 51)
    calc _ ≤ (2 : ℚ) ^ 51 * 2 ^ (-51 : ℤ) := mul_le_mul_of_nonneg_right this (by positivity)
      _ = 1 := by norm_num
  have := (g_pow hN).1
  push_cast at this
  exact this

/-- C168: a column that is not constant has correlation 1 with itself, but for a few roundings. -/
theorem C168_self_partial (sqrt : ℚ → ℚ) (hr : RoundsRoots sqrt) (x : List ℚ) (hx : Usual x) (hnx : ∃ a ∈ x, ∃ b ∈ x, a ≠ b) :
    ∃ r, corr sqrt x x = .ok r ∧ |r - 1| ≤ (x.length + 9) * 2 ^ (-51 : ℤ) := by
  obtain ⟨r, h, hu1⟩ := C168_range_partial sqrt hr x x hx hx rfl hnx hnx
  refine ⟨r, h, ?_⟩
  have hu := avg_ok hx.1
  obtain ⟨c, hc, c0, hc2⟩ := covar_self_ge hx hu
  obtain ⟨v, v1, v2, v3, v4, -, v6⟩ := dev_pos hr hx hnx hu
  obtain ⟨p1, -, p3⟩ := far_prod v3 v3
  rw [corr_ok hc v1 v2 v1 v2, div_ok p3.ne'] at h
  injection h with h
  have hN : ((x.length + 9 : ℕ) : ℚ) * 2 ^ (-51 : ℤ) ≤ 1 := by
    have : ((x.length + 9 : ℕ) : ℚ) ≤ 2 ^ 51 := by
      have := hx.2.1
      exact_mod_cast (by omega : x.length + 9 ≤ 2 ^ 51)
    calc _ ≤ (2 : ℚ) ^ 51 * 2 ^ (-51 : ℤ) := mul_le_mul_of_nonneg_right this (by positivity)
      _ = 1 := by norm_num
  have hg := (g_pow hN).2
  push_cast at hg
  generalize (x.map (fun a => fl (a - fl (fl x.sum / x.length)) ^ 2)).sum / x.length = V at *
  generalize fl (sqrt v * sqrt v) = D at *
  generalize sqrt v = d at *
  have k1 : D ≤ g ^ 6 * V := by
    refine p1.trans ?_
    rw [show g ^ 6 * V = g * (g ^ 5 * V) by ring, ← sq]
    exact mul_le_mul_of_nonneg_left v6 g_pos.le
  have k2 : D ≤ g ^ (x.length + 8) * c := by
    refine k1.trans ?_
    rw [show g ^ (x.length + 8) * c = g ^ 6 * (g ^ (x.length + 2) * c) by ring]
    exact mul_le_mul_of_nonneg_left hc2 (pow_nonneg g_pos.le _)
  have gn : 0 < g ^ (x.length + 8) := pow_pos g_pos _
  have k3 : 1 / g ^ (x.length + 8) ≤ c / D := by
    rw [div_le_div_iff₀ gn p3]
    linarith
  have k4 : 1 / g ^ (x.length + 9) ≤ r := by
    have f := far_g (z := 1 / g ^ (x.length + 8)) (Or.inr (by
      rw [abs_of_pos (by positivity)]
      have hN8 : ((x.length + 8 : ℕ) : ℚ) * 2 ^ (-51 : ℤ) ≤ 1 / 2 := by
        have : ((x.length + 8 : ℕ) : ℚ) ≤ 2 ^ 50 := by
          have := hx.2.1
          exact_mod_cast (by omega : x.length + 8 ≤ 2 ^ 50)
        calc _ ≤ (2 : ℚ) ^ 50 * 2 ^ (-51 : ℤ) := mul_le_mul_of_nonneg_right this (by positivity)
          _ = 1 / 2 := by norm_num
      have := (g_pow (hN8.trans (by norm_num))).2
      refine le_trans ?_ this
      refine le_trans (?_ : _ ≤ (1 : ℚ) / 2) (by linarith)
      rw [show (1 : ℚ) / 2 = 2 ^ (-1 : ℤ) by norm_num]
      exact zpow_le_zpow_right₀ (by norm_num) (by norm_num)))
    obtain ⟨-, f2, f3⟩ := f
    have f3 := f3 (by positivity)
    rw [abs_of_pos (by positivity), abs_of_nonneg f3] at f2
    have m := fl_mono k3
    rw [h] at m
    have : 1 / g ^ (x.length + 8) ≤ g * r := f2.trans (mul_le_mul_of_nonneg_left m g_pos.le)
    rw [show g ^ (x.length + 9) = g ^ (x.length + 8) * g by ring, div_mul_eq_div_div, div_le_iff₀ g_pos]
    linarith
  obtain ⟨-, hu2⟩ := abs_le.mp hu1
  rw [abs_le]
  have k5 := hg.trans k4
  generalize ((x.length : ℚ) + 9) * 2 ^ (-51 : ℤ) = B at *
  constructor <;> linarith

/-- C168: the correlation is symmetric, to the last bit. -/
theorem C168_symmetric (sqrt : ℚ → ℚ) (x y : List ℚ) (hl : x.length = y.length) : corr sqrt x y = corr sqrt y x := by
  by_cases hx : x = []
  · have hy : y = [] := by subst hx; exact List.length_eq_zero_iff.mp (by simpa using hl.symm)
    rw [hx, hy]
  have hy : y ≠ [] := by rintro rfl; exact hx (List.length_eq_zero_iff.mp (by simpa using hl))
  have hu := avg_ok hx
  have hv := avg_ok hy
  have ht : ∀ u v, terms x y u v = terms y x v u := by
    intro u v
    rw [terms, terms, ← hl]
    generalize (x.length : ℚ) = n
    rw [List.zipWith_comm]
    congr 1
    funext b a
    rw [mul_comm]
  obtain ⟨v, hv', v0⟩ := C156_variance_not_negative x hx
  obtain ⟨w, hw', w0⟩ := C156_variance_not_negative y hy
  rw [corr_ok (covar_ok hl hx hu hv) hv' v0 hw' w0, corr_ok (covar_ok hl.symm hy hv hu) hw' w0 hv' v0, ht, mul_comm (sqrt v)]

theorem sum_neg (x : List ℚ) : (x.map (- ·)).sum = - x.sum := by
  induction x with
  | nil => simp
  | cons a x ih => rw [List.map_cons, List.sum_cons, List.sum_cons, ih]; ring

theorem foldl_neg (l : List ℚ) (c : ℚ) : (l.map (- ·)).foldl (fun c q => fl (c + q)) (- c) = - l.foldl (fun c q => fl (c + q)) c := by
  induction l generalizing c with
  | nil => simp
  | cons a l ih =>
    rw [List.map_cons, List.foldl_cons, List.foldl_cons, ← ih, ← fl_neg]
    congr 2
    ring

/-- C168: a column with all signs changed has the opposite correlation, to the last bit. -/
theorem C168_mirrored (sqrt : ℚ → ℚ) (x y : List ℚ) (hl : x.length = y.length) (r : ℚ) (h : corr sqrt x y = .ok r) :
    corr sqrt (x.map (- ·)) y = .ok (- r) := by
  by_cases hx : x = []
  · subst hx
    simp [corr, covar, avg, div, bind, Except.bind] at h
  have hy : y ≠ [] := by rintro rfl; exact hx (List.length_eq_zero_iff.mp (by simpa using hl))
  have hx' : x.map (- ·) ≠ [] := by simpa using hx
  have hu := avg_ok hx
  have hu' : avg (x.map (- ·)) = .ok (- fl (fl x.sum / x.length)) := by
    rw [avg_ok hx', sum_neg, fl_neg, List.length_map, neg_div, fl_neg]
  have hv := avg_ok hy
  have hd : ∀ a u : ℚ, fl (-a - -u) = - fl (a - u) := fun a u => by
    rw [← fl_neg]
    congr 1
    ring
  have hvar : var (x.map (- ·)) = var x := by
    simp only [var, hu, hu', bind, Except.bind, List.map_map, List.length_map]
    congr 3
    funext a
    simp only [Function.comp, hd, neg_mul_neg]
  have ht : ∀ u v, terms (x.map (- ·)) y (-u) v = (terms x y u v).map (- ·) := by
    intro u v
    rw [terms, terms, List.length_map, List.map_zipWith, List.zipWith_map_left]
    congr 1
    funext a b
    rw [hd, neg_mul, fl_neg, neg_div, fl_neg]
  obtain ⟨v, hv', v0⟩ := C156_variance_not_negative x hx
  obtain ⟨w, hw', w0⟩ := C156_variance_not_negative y hy
  rw [corr_ok (covar_ok hl hx hu hv) hv' v0 hw' w0] at h
  rw [corr_ok (covar_ok (by simpa using hl) hx' hu' hv) (hvar.trans hv') v0 hw' w0, ht]
  have := foldl_neg (terms x y (fl (fl x.sum / x.length)) (fl (fl y.sum / y.length))) 0
  rw [neg_zero] at this
  rw [this]
  unfold div at h ⊢
  by_cases hz : fl (sqrt v * sqrt w) = 0
  · rw [if_pos hz] at h; cases h
  · rw [if_neg hz] at h ⊢
    injection h with h
    rw [neg_div, fl_neg, h]

/-- C168: the correlation of the columns 0, 0, 1 and 0, 0, 1 is above 1, whatever correctly rounded square root is used. -/
theorem C168_range_violated (sqrt : ℚ → ℚ) (hr : RoundsRoots sqrt) : corr sqrt [0, 0, 1] [0, 0, 1] = .ok (1 + 2 ^ (-52 : ℤ)) := by
  have hc : covar [0, 0, 1] [0, 0, 1] = .ok (8006399337547549 / 2 ^ 55) := by decide +kernel
  have hv : var [0, 0, 1] = .ok (8006399337547549 / 2 ^ 55) := by decide +kernel
  have hd : sqrt (8006399337547549 / 2 ^ 55) = 4246034448350515 / 2 ^ 53 :=
    root_eq hr (lo := 4246034448350515 / 2 ^ 53 - 7 / 2 ^ 58) (hi := 4246034448350515 / 2 ^ 53 + 7 / 2 ^ 58) (by norm_num) (by norm_num)
      (by norm_num) (by norm_num) (by norm_num) (by decide +kernel) (by decide +kernel)
  rw [corr_ok hc hv (by norm_num) hv (by norm_num), hd]
  decide +kernel

/-- C168: a constant column has no correlation if its elements times their number are floats: so for integers. -/
theorem C168_constant_partial (sqrt : ℚ → ℚ) (hr : RoundsRoots sqrt) (x y : List ℚ) (hx : x ≠ []) (hl : x.length = y.length) (a : ℚ) (ha : IsDouble a)
    (hc : ∀ b ∈ x, b = a) (hn : IsDouble (x.length * a)) : corr sqrt x y = .error .zeroDivisionError := by
  have hy : y ≠ [] := by rintro rfl; exact hx (List.length_eq_zero_iff.mp (by simpa using hl))
  obtain ⟨u, hu, -, -, hv⟩ := C156_average_between_partial x hx a a ha ha (fun b hb => ⟨(hc b hb).ge, (hc b hb).le⟩) hn hn
  obtain ⟨w, hw, w0⟩ := C156_variance_not_negative y hy
  have h0 : sqrt 0 = 0 := by
    have := (root_g hr (le_refl 0) (Or.inl rfl)).1
    rw [mul_zero] at this
    exact pow_eq_zero_iff (two_ne_zero) |>.mp (le_antisymm this (sq_nonneg _))
  rw [corr_ok (covar_ok hl hx hu (avg_ok hy)) (hv rfl) (le_refl _) hw w0, h0, zero_mul, div, if_pos (fl_id double_zero)]

/-- C168: the constant column 0.1, 0.1, 0.1 has the correlation 1 with itself, rather than none. -/
theorem C168_constant_violated (sqrt : ℚ → ℚ) (hr : RoundsRoots sqrt) : corr sqrt [tenth, tenth, tenth] [tenth, tenth, tenth] = .ok 1 := by
  have hc : covar [tenth, tenth, tenth] [tenth, tenth, tenth] = .ok (1 / 2 ^ 112) := by decide +kernel
  have hv : var [tenth, tenth, tenth] = .ok (1 / 2 ^ 112) := by decide +kernel
  have hd : sqrt (1 / 2 ^ 112) = 1 / 2 ^ 56 :=
    root_eq hr (lo := 1 / 2 ^ 56 - 1 / 2 ^ 116) (hi := 1 / 2 ^ 56 + 1 / 2 ^ 116) (by norm_num) (by norm_num)
      (by norm_num) (by norm_num) (by norm_num) (by decide +kernel) (by decide +kernel)
  rw [corr_ok hc hv (by norm_num) hv (by norm_num), hd]
  decide +kernel

/-- Three floats that are not constant meet the hypotheses, and a correctly rounded root exists. -/
example : (∃ sqrt, RoundsRoots sqrt) ∧ Usual [1 / 2, 3, -7] ∧ ∃ a ∈ ([1 / 2, 3, -7] : List ℚ), ∃ b ∈ ([1 / 2, 3, -7] : List ℚ), a ≠ b := by
  refine ⟨exists_roundsRoots, ⟨by simp, by norm_num, ?_⟩, 1 / 2, by simp, 3, by simp, by norm_num⟩
  have hf : ∀ z : ℚ, 1 / 2 ≤ |z| → Far (-300) z := fun z hz => Or.inr (le_trans (by
    rw [show (1 : ℚ) / 2 = 2 ^ (-1 : ℤ) by norm_num]
    exact zpow_le_zpow_right₀ (by norm_num) (by norm_num)) hz)
  intro z hz
  simp only [List.mem_cons, List.not_mem_nil, or_false] at hz
  rcases hz with rfl | rfl | rfl
  · exact ⟨⟨1, -1, by norm_num, by norm_num, by norm_num⟩, hf _ (by norm_num)⟩
  · exact ⟨⟨3, 0, by norm_num, by norm_num, by norm_num⟩, hf _ (by norm_num)⟩
  · exact ⟨⟨-7, 0, by norm_num, by norm_num, by norm_num⟩, hf _ (by norm_num)⟩

example : IsDouble ((3 : ℕ) * 5) := ⟨15, 0, by norm_num, by norm_num, by norm_num⟩

end Flt
end Coral
