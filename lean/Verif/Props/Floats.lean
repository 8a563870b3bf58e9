import Verif.Model.Floats
import Verif.Proofs.Coord
import Verif.Proofs.Raster
import Verif.Proofs.BBox

/-!
# Arithmetic on floats (C152-C154)
-/
namespace Coral
namespace Flt

/-! ### C152 -/

/-- The doubles that `nearest` does not round to the nearest integer. -/
def Misrounded (x : ℚ) : Prop := |x| = 1 / 2 - 2 ^ (-54 : ℤ) ∨ ∃ n : ℤ, x = n ∧ n % 2 = 1 ∧ 2 ^ 52 < |n| ∧ |n| < 2 ^ 53

theorem trunc_floor {y : ℚ} (h : 0 ≤ y) : pyTrunc y = ⌊y⌋ := by rw [pyTrunc, if_pos h]

theorem nearest_pos {x : ℚ} (h : 0 ≤ x) : nearest x = ⌊fl (x + 1 / 2)⌋ := by
  have hd : IsDouble 0 := by simpa using double_int (n := 0) (by norm_num)
  rw [nearest, copysign, if_pos h, trunc_floor (le_fl hd (by linarith))]

theorem nearest_neg_eq {x : ℚ} (h : x ≠ 0) : nearest (-x) = - nearest x := by
  have hd : IsDouble 0 := by simpa using double_int (n := 0) (by norm_num)
  have hhalf : IsDouble (1 / 2) := by
    have := double_mk (m := 1) (e := -1) (by norm_num) (by norm_num)
    simpa using this
  have key : ∀ y : ℚ, 0 < y → nearest (-y) = - nearest y := by
    intro y hy
    rw [nearest_pos hy.le, nearest, copysign, if_neg (by linarith), show -y + -(1 / 2) = -(y + 1 / 2) by ring, fl_neg]
    have : (1 : ℚ) / 2 ≤ fl (y + 1 / 2) := le_fl hhalf (by linarith)
    rw [pyTrunc, if_neg (by linarith), Int.ceil_neg]
  rcases lt_or_gt_of_ne h with hn | hp
  · have := key (-x) (by linarith)
    rw [neg_neg] at this
    omega
  · exact key x hp

theorem double_int_of_large {x : ℚ} (h : IsDouble x) {k : ℕ} (hx : (2 : ℚ) ^ (k + 52) ≤ |x|) : ∃ n : ℤ, x = n * 2 ^ k := by
  obtain ⟨m, e, hm, -, hd⟩ := h
  have : (2 : ℚ) ^ (((k : ℕ) : ℤ) + 52) ≤ |x| := by
    rw [show ((k : ℤ) + 52) = ((k + 52 : ℕ) : ℤ) by push_cast; ring, zpow_natCast]
    exact hx
  obtain ⟨n, hn⟩ := double_grid hm hd (E := (k : ℤ)) (Or.inr this)
  exact ⟨n, by rw [hn, zpow_natCast]⟩

/-- Rounding halfway between two large integers. -/
theorem fl_half {n : ℤ} (h1 : 2 ^ 52 ≤ n) (h2 : n < 2 ^ 53) : fl ((n : ℚ) + 1 / 2) = if n % 2 = 0 then (n : ℚ) else n + 1 := by
  have hpos : (0 : ℚ) < (n : ℚ) + 1 / 2 := by
    have : (0 : ℚ) < n := by exact_mod_cast (by omega : 0 < n)
    linarith
  have hn1 : (2 : ℚ) ^ (52 : ℕ) ≤ n := by exact_mod_cast h1
  have hn2 : (n : ℚ) + 1 ≤ 2 ^ (53 : ℕ) := by exact_mod_cast (by omega : n + 1 ≤ 2 ^ 53)
  have hexp : expOf ((n : ℚ) + 1 / 2) = 0 := by
    have hlow : (2 : ℚ) ^ (0 + 52 : ℤ) ≤ |(n : ℚ) + 1 / 2| := by
      rw [abs_of_pos hpos]
      have : (2 : ℚ) ^ (0 + 52 : ℤ) = 2 ^ (52 : ℕ) := by norm_num
      linarith
    have hle : expOf ((n : ℚ) + 1 / 2) ≤ 0 := by
      refine exp_le hpos.ne' (by norm_num) ?_
      rw [abs_of_pos hpos]
      have : (2 : ℚ) ^ (0 + 53 : ℤ) = 2 ^ (53 : ℕ) := by norm_num
      linarith
    have hge : 0 ≤ expOf ((n : ℚ) + 1 / 2) := by
      by_contra hc
      push Not at hc
      have h3 := abs_lt_exp ((n : ℚ) + 1 / 2)
      have h4 : (2 : ℚ) ^ (expOf ((n : ℚ) + 1 / 2) + 53) ≤ 2 ^ (0 + 52 : ℤ) := zpow_le_zpow_right₀ (by norm_num) (by omega)
      linarith
    omega
  have hfl : ⌊(n : ℚ) + 1 / 2⌋ = n := by
    rw [Int.floor_eq_iff]; constructor <;> linarith
  rw [fl, hexp, zpow_zero, div_one, mul_one]
  simp only [pyRound, hfl]
  rw [if_neg (by linarith), if_neg (by linarith)]
  split
  · rfl
  · push_cast; rfl

theorem nearest_small {x : ℚ} (hd : IsDouble x) (h0 : 0 ≤ x) (h : x < 2 ^ 52) (hb : x ≠ 1 / 2 - 2 ^ (-54 : ℤ)) : nearest x = Coral.nearest x := by
  rw [nearest_pos h0, nearest_nonneg h0]
  generalize hn : ⌊x + 1 / 2⌋ = n
  have hn1 : (n : ℚ) ≤ x + 1 / 2 := by rw [← hn]; exact Int.floor_le _
  have hn2 : x + 1 / 2 < n + 1 := by rw [← hn]; exact Int.lt_floor_add_one _
  have hn0 : 0 ≤ n := by rw [← hn]; exact Int.floor_nonneg.mpr (by linarith)
  have hnle : n ≤ 2 ^ 52 := by
    have : (n : ℚ) < 2 ^ 52 + 1 := by linarith
    have : n < 2 ^ 52 + 1 := by exact_mod_cast this
    omega
  have hnd : IsDouble n := double_int (by rw [abs_of_nonneg hn0]; omega)
  rw [Int.floor_eq_iff]
  refine ⟨le_fl hnd hn1, ?_⟩
  -- it is enough to find a double between
  suffices ∃ d, IsDouble d ∧ x + 1 / 2 ≤ d ∧ d < n + 1 by
    obtain ⟨d, h1, h2, h3⟩ := this
    exact lt_of_le_of_lt (fl_le h1 h2) h3
  obtain ⟨m, e, hm, he, hxe⟩ := id hd
  by_cases hsmall : x < 1 / 2
  · have hn' : n = 0 := by
      have : (n : ℚ) < 1 := by linarith
      have : n < 1 := by exact_mod_cast this
      omega
    rw [hn']
    refine ⟨1 - 2 ^ (-53 : ℤ), ?_, ?_, ?_⟩
    · have := double_mk (m := 2 ^ 53 - 1) (e := -53) (by norm_num) (by norm_num)
      have e1 : (((2 ^ 53 - 1 : ℤ)) : ℚ) * 2 ^ (-53 : ℤ) = 1 - 2 ^ (-53 : ℤ) := by norm_num
      rwa [e1] at this
    · by_cases hq : x < 1 / 4
      · have : (2 : ℚ) ^ (-53 : ℤ) ≤ 1 / 4 := by norm_num
        linarith
      · have h4 : (2 : ℚ) ^ (-54 + 52 : ℤ) ≤ |x| := by
          rw [abs_of_nonneg h0]
          have : (2 : ℚ) ^ (-54 + 52 : ℤ) = 1 / 4 := by norm_num
          push Not at hq
          rw [this]
          exact hq
        obtain ⟨k, hk⟩ := double_grid hm hxe (E := -54) (Or.inr h4)
        have hp := two_zpow_pos (-54)
        have e2 : (1 : ℚ) / 2 = ((2 ^ 53 : ℤ) : ℚ) * 2 ^ (-54 : ℤ) := by norm_num
        have k1 : k < 2 ^ 53 := by
          rw [hk, e2] at hsmall
          exact_mod_cast (mul_lt_mul_iff_left₀ hp).mp hsmall
        have k2 : k ≠ 2 ^ 53 - 1 := by
          intro hc
          apply hb
          rw [hk, hc]
          norm_num
        have k3 : (k : ℚ) ≤ ((2 ^ 53 - 2 : ℤ) : ℚ) := by exact_mod_cast (by omega : k ≤ 2 ^ 53 - 2)
        have := mul_le_mul_of_nonneg_right k3 hp.le
        rw [← hk] at this
        have e3 : ((2 ^ 53 - 2 : ℤ) : ℚ) * 2 ^ (-54 : ℤ) + 1 / 2 = 1 - 2 ^ (-53 : ℤ) := by norm_num
        rw [← e3]
        exact add_le_add_left this _
    · have := two_zpow_pos (-53)
      push_cast
      linarith
  · push Not at hsmall
    have hn'' : 1 ≤ n := by rw [← hn]; exact Int.le_floor.mpr (by push_cast; linarith)
    by_cases hend : n = 2 ^ 52
    · refine ⟨n, hnd, ?_, by linarith⟩
      have h4 : (2 : ℚ) ^ (-1 + 52 : ℤ) ≤ |x| := by
        rw [abs_of_nonneg h0]
        have : (2 : ℚ) ^ (-1 + 52 : ℤ) = 2 ^ 51 := by norm_num
        rw [hend] at hn1
        push_cast at hn1
        rw [this]
        linarith
      obtain ⟨k, hk⟩ := double_grid hm hxe (E := -1) (Or.inr h4)
      have e1 : (2 : ℚ) ^ (-1 : ℤ) = 1 / 2 := by norm_num
      rw [e1] at hk
      have k1 : k < 2 ^ 53 := by
        have : (k : ℚ) < 2 ^ 53 := by linarith
        exact_mod_cast this
      have k2 : (k : ℚ) ≤ ((2 ^ 53 - 1 : ℤ) : ℚ) := by exact_mod_cast (by omega : k ≤ 2 ^ 53 - 1)
      rw [hend, hk]
      push_cast at k2 ⊢
      linarith
    · -- the binade of n
      have hnpos : (0 : ℚ) < n := by exact_mod_cast hn''
      obtain ⟨p, hp1, hp2⟩ : ∃ p : ℕ, (2 : ℤ) ^ p ≤ n ∧ n < 2 ^ (p + 1) := by
        refine ⟨Nat.log 2 n.toNat, ?_, ?_⟩
        · have := Nat.pow_log_le_self 2 (x := n.toNat) (by omega)
          have : ((2 ^ Nat.log 2 n.toNat : ℕ) : ℤ) ≤ n.toNat := by exact_mod_cast this
          rw [Int.toNat_of_nonneg hn0] at this
          exact_mod_cast this
        · have := Nat.lt_pow_succ_log_self (b := 2) (by norm_num) n.toNat
          have : (n.toNat : ℤ) < ((2 ^ (Nat.log 2 n.toNat + 1) : ℕ) : ℤ) := by exact_mod_cast this
          rw [Int.toNat_of_nonneg hn0] at this
          exact_mod_cast this
      have hp51 : p ≤ 51 := by
        by_contra hc
        have h1 : (2 : ℤ) ^ 52 ≤ 2 ^ p := pow_le_pow_right₀ (by norm_num) (by omega)
        omega
      have hu := two_zpow_pos ((p : ℤ) - 52)
      have hu2 : (2 : ℚ) ^ ((p : ℤ) - 52) ≤ 1 / 2 := by
        have : (2 : ℚ) ^ ((p : ℤ) - 52) ≤ 2 ^ (-1 : ℤ) := zpow_le_zpow_right₀ (by norm_num) (by omega)
        have e1 : (2 : ℚ) ^ (-1 : ℤ) = 1 / 2 := by norm_num
        rwa [e1] at this
      have hone : (1 : ℚ) = ((2 ^ (52 - p) : ℤ) : ℚ) * 2 ^ ((p : ℤ) - 52) := by
        push_cast
        rw [← zpow_natCast, ← zpow_add₀ (by norm_num), show ((52 - p : ℕ) : ℤ) + (p - 52) = 0 by omega, zpow_zero]
      refine ⟨n + 1 - 2 ^ ((p : ℤ) - 52), ?_, ?_, by linarith⟩
      · have hb : |(n + 1) * 2 ^ (52 - p) - 1| ≤ (2 : ℤ) ^ 53 := by
          have h1 : (0 : ℤ) < 2 ^ (52 - p) := by positivity
          have h2 : (n + 1) * 2 ^ (52 - p) ≤ 2 ^ (p + 1) * 2 ^ (52 - p) := mul_le_mul_of_nonneg_right (by omega) h1.le
          rw [← pow_add, show p + 1 + (52 - p) = 53 by omega] at h2
          have h3 : 0 ≤ (n + 1) * 2 ^ (52 - p) - 1 := by
            have : 1 * 1 ≤ (n + 1) * 2 ^ (52 - p) := mul_le_mul (by omega) (by omega) (by norm_num) (by omega)
            omega
          rw [abs_of_nonneg h3]
          omega
        have := double_mk hb (e := (p : ℤ) - 52) (by omega)
        have e1 : (((n + 1) * 2 ^ (52 - p) - 1 : ℤ) : ℚ) * 2 ^ ((p : ℤ) - 52) = n + 1 - 2 ^ ((p : ℤ) - 52) := by
          have : (((n + 1) * 2 ^ (52 - p) - 1 : ℤ) : ℚ) * 2 ^ ((p : ℤ) - 52) =
              (n + 1) * (((2 ^ (52 - p) : ℤ) : ℚ) * 2 ^ ((p : ℤ) - 52)) - 2 ^ ((p : ℤ) - 52) := by push_cast; ring
          rw [this, ← hone, mul_one]
        rwa [e1] at this
      · have hpq : (2 : ℚ) ^ (((p : ℤ) - 52) + 52) = 2 ^ p := by
          rw [show ((p : ℤ) - 52) + 52 = (p : ℤ) by ring, zpow_natCast]
        by_cases hx : (2 : ℚ) ^ p ≤ x
        · obtain ⟨k, hk⟩ := double_grid hm hxe (E := (p : ℤ) - 52) (Or.inr (by rw [hpq, abs_of_nonneg h0]; exact hx))
          have hhalf : (1 : ℚ) / 2 = ((2 ^ (51 - p) : ℤ) : ℚ) * 2 ^ ((p : ℤ) - 52) := by
            push_cast
            rw [← zpow_natCast, ← zpow_add₀ (by norm_num), show ((51 - p : ℕ) : ℤ) + (p - 52) = -1 by omega]
            norm_num
          have h5 : ((k + 2 ^ (51 - p) : ℤ) : ℚ) * 2 ^ ((p : ℤ) - 52) < (((n + 1) * 2 ^ (52 - p) : ℤ) : ℚ) * 2 ^ ((p : ℤ) - 52) := by
            have e1 : ((k + 2 ^ (51 - p) : ℤ) : ℚ) * 2 ^ ((p : ℤ) - 52) = x + 1 / 2 := by
              rw [hhalf, hk]; push_cast; ring
            have e2 : (((n + 1) * 2 ^ (52 - p) : ℤ) : ℚ) * 2 ^ ((p : ℤ) - 52) = n + 1 := by
              have : (((n + 1) * 2 ^ (52 - p) : ℤ) : ℚ) * 2 ^ ((p : ℤ) - 52) =
                (n + 1) * (((2 ^ (52 - p) : ℤ) : ℚ) * 2 ^ ((p : ℤ) - 52)) := by push_cast; ring
              rw [this, ← hone, mul_one]
            rw [e1, e2]; exact hn2
          have h6 : k + 2 ^ (51 - p) < (n + 1) * 2 ^ (52 - p) := by exact_mod_cast (mul_lt_mul_iff_left₀ hu).mp h5
          have h7 : ((k + 2 ^ (51 - p) : ℤ) : ℚ) ≤ (((n + 1) * 2 ^ (52 - p) - 1 : ℤ) : ℚ) := by exact_mod_cast (by omega : k + 2 ^ (51 - p) ≤ (n + 1) * 2 ^ (52 - p) - 1)
          have h8 := mul_le_mul_of_nonneg_right h7 hu.le
          have e1 : ((k + 2 ^ (51 - p) : ℤ) : ℚ) * 2 ^ ((p : ℤ) - 52) = x + 1 / 2 := by
            rw [hhalf, hk]; push_cast; ring
          have e2 : (((n + 1) * 2 ^ (52 - p) - 1 : ℤ) : ℚ) * 2 ^ ((p : ℤ) - 52) = n + 1 - 2 ^ ((p : ℤ) - 52) := by
            have : (((n + 1) * 2 ^ (52 - p) - 1 : ℤ) : ℚ) * 2 ^ ((p : ℤ) - 52) =
              (n + 1) * (((2 ^ (52 - p) : ℤ) : ℚ) * 2 ^ ((p : ℤ) - 52)) - 2 ^ ((p : ℤ) - 52) := by push_cast; ring
            rw [this, ← hone, mul_one]
          rw [e1, e2] at h8
          exact h8
        · push Not at hx
          have : (2 : ℚ) ^ p ≤ n := by exact_mod_cast hp1
          linarith

theorem nearest_mid {n : ℤ} (h1 : 2 ^ 52 ≤ n) (h2 : n < 2 ^ 53) : nearest n = if n % 2 = 0 then n else n + 1 := by
  have h0 : (0 : ℚ) ≤ n := by exact_mod_cast (by omega : 0 ≤ n)
  rw [nearest_pos h0, fl_half h1 h2]
  split
  · exact Int.floor_intCast _
  · rw [show ((n : ℚ) + 1) = ((n + 1 : ℤ) : ℚ) by push_cast; rfl, Int.floor_intCast]

theorem nearest_big {x : ℚ} (hd : IsDouble x) (h : (2 : ℚ) ^ 53 ≤ x) : nearest x = Coral.nearest x := by
  have h0 : 0 ≤ x := le_trans (by norm_num) h
  obtain ⟨n, hn⟩ := double_int_of_large hd (k := 1) (by rw [abs_of_nonneg h0]; exact h)
  have hx : x = ((2 * n : ℤ) : ℚ) := by rw [hn]; push_cast; ring
  have hf : fl (x + 1 / 2) = x := by
    have a1 := le_fl hd (show x ≤ x + 1 / 2 by linarith)
    obtain ⟨m, hm⟩ := double_int_of_large (fl_double (x + 1 / 2)) (k := 1)
      (by rw [abs_of_nonneg (le_trans h0 a1)]; exact le_trans h a1)
    have a2 := fl_nearest (x + 1 / 2) hd
    rw [show x - (x + 1 / 2) = -(1 / 2) by ring, abs_neg, abs_of_pos (by norm_num : (0 : ℚ) < 1 / 2)] at a2
    have a3 := (abs_le.mp a2).2
    have a4 : ((m : ℚ)) * 2 ≤ n * 2 + 1 := by rw [← pow_one (2 : ℚ), ← hm, ← hn]; linarith
    have a5 : m * 2 ≤ n * 2 + 1 := by exact_mod_cast a4
    have a6 : (m : ℚ) ≤ n := by exact_mod_cast (by omega : m ≤ n)
    have : fl (x + 1 / 2) ≤ x := by rw [hm, hn]; exact mul_le_mul_of_nonneg_right a6 (by norm_num)
    linarith
  rw [nearest_pos h0, hf, hx, nearest_intCast, Int.floor_intCast]

/-- Zero and the positive doubles. -/
theorem nearest_pos_cases {x : ℚ} (hd : IsDouble x) (h0 : 0 ≤ x) :
    (¬ Misrounded x → nearest x = Coral.nearest x) ∧ (Misrounded x → nearest x = Coral.nearest x + 1) := by
  by_cases h1 : x < 2 ^ 52
  · by_cases hb : x = 1 / 2 - 2 ^ (-54 : ℤ)
    · refine ⟨fun h => absurd (Or.inl (by rw [abs_of_nonneg h0]; exact hb)) h, fun _ => ?_⟩
      have e1 : fl (x + 1 / 2) = 1 := by
        have hh : expOf (1 - 2 ^ (-54 : ℤ)) = -53 := by
          have hpos : (0 : ℚ) < 1 - 2 ^ (-54 : ℤ) := by norm_num
          have hle : expOf (1 - 2 ^ (-54 : ℤ)) ≤ -53 := by
            refine exp_le hpos.ne' (by norm_num) ?_
            rw [abs_of_pos hpos]
            norm_num
          have hge : -53 ≤ expOf (1 - 2 ^ (-54 : ℤ)) := by
            by_contra hc
            push Not at hc
            have h3 := abs_lt_exp (1 - 2 ^ (-54 : ℤ))
            rw [abs_of_pos hpos] at h3
            have h4 : (2 : ℚ) ^ (expOf (1 - 2 ^ (-54 : ℤ)) + 53) ≤ 2 ^ (-1 : ℤ) := zpow_le_zpow_right₀ (by norm_num) (by omega)
            have h5 : (2 : ℚ) ^ (-1 : ℤ) < 1 - 2 ^ (-54 : ℤ) := by norm_num
            exact absurd (lt_of_lt_of_le h3 h4) (not_lt.mpr h5.le)
          omega
        rw [hb, show (1 : ℚ) / 2 - 2 ^ (-54 : ℤ) + 1 / 2 = 1 - 2 ^ (-54 : ℤ) by ring, fl, hh]
        have : ((1 : ℚ) - 2 ^ (-54 : ℤ)) / 2 ^ (-53 : ℤ) = 2 ^ 53 - 1 / 2 := by norm_num
        rw [this]
        have h6 : pyRound ((2 : ℚ) ^ 53 - 1 / 2) = 2 ^ 53 := by
          have : ⌊(2 : ℚ) ^ 53 - 1 / 2⌋ = 2 ^ 53 - 1 := by
            rw [Int.floor_eq_iff]; constructor <;> norm_num
          simp only [pyRound, this]
          rw [if_neg (by norm_num), if_neg (by norm_num), if_neg (by norm_num)]
          norm_num
        rw [h6]
        norm_num
      have e2 : ⌊x + 1 / 2⌋ = 0 := by
        rw [hb, Int.floor_eq_iff]; constructor <;> norm_num
      rw [nearest_pos h0, e1, nearest_nonneg h0, e2, Int.floor_one]
      rfl
    · refine ⟨fun _ => nearest_small hd h0 h1 hb, fun h => ?_⟩
      exfalso
      rcases h with h | ⟨n, hn, -, h2, -⟩
      · rw [abs_of_nonneg h0] at h; exact hb h
      · rw [hn] at h1 h0
        have : n < 2 ^ 52 := by exact_mod_cast h1
        have : 0 ≤ n := by exact_mod_cast h0
        rw [abs_of_nonneg this] at h2
        omega
  · push Not at h1
    by_cases h2 : x < 2 ^ 53
    · obtain ⟨n, hn⟩ := double_int_of_large hd (k := 0) (by rw [abs_of_nonneg h0]; exact h1)
      rw [pow_zero, mul_one] at hn
      subst hn
      have k1 : 2 ^ 52 ≤ n := by exact_mod_cast h1
      have k2 : n < 2 ^ 53 := by exact_mod_cast h2
      rw [nearest_mid k1 k2, nearest_intCast]
      have hiff : Misrounded n ↔ n % 2 = 1 := by
        constructor
        · rintro (h | ⟨m, hm, h3, -, -⟩)
          · exfalso
            rw [abs_of_nonneg h0] at h
            rw [h] at h1
            norm_num at h1
          · have : n = m := by exact_mod_cast hm
            rw [this]; exact h3
        · intro h
          refine Or.inr ⟨n, rfl, h, ?_, ?_⟩ <;> rw [abs_of_nonneg (by omega)] <;> omega
      rw [hiff]
      constructor
      · intro h; rw [if_pos (by omega)]
      · intro h; rw [if_neg (by omega)]
    · push Not at h2
      refine ⟨fun _ => nearest_big hd h2, fun h => ?_⟩
      exfalso
      rcases h with h | ⟨n, hn, -, -, h3⟩
      · rw [abs_of_nonneg h0] at h
        rw [h] at h2
        norm_num at h2
      · rw [hn] at h2
        have : 2 ^ 53 ≤ n := by exact_mod_cast h2
        have := le_abs_self n
        omega

theorem misrounded_neg {x : ℚ} (h : Misrounded x) : Misrounded (-x) := by
  rcases h with h | ⟨n, hn, h1, h2, h3⟩
  · left; rwa [abs_neg]
  · right
    exact ⟨-n, by rw [hn]; push_cast; rfl, by omega, by rwa [abs_neg], by rwa [abs_neg]⟩

/-- C152: on every other finite double, rounding is exact: the integer nearest to it, halves away from zero. -/
theorem C152_nearest_double_partial (x : ℚ) (hd : IsDouble x) (h : ¬ Misrounded x) :
    nearest x = Coral.nearest x ∧ |(nearest x : ℚ) - x| ≤ 1 / 2 ∧ (∀ n : ℤ, |(n : ℚ) - x| = 1 / 2 → |n| ≤ |nearest x|) := by
  have key : nearest x = Coral.nearest x := by
    rcases le_or_gt 0 x with h0 | h0
    · exact (nearest_pos_cases hd h0).1 h
    · have h1 := (nearest_pos_cases (double_neg hd) (by linarith)).1 (fun hc => h (by simpa using misrounded_neg hc))
      rw [nearest_neg_eq h0.ne, nearest_odd] at h1
      omega
  rw [key]
  refine ⟨rfl, nearest_abs x, fun n hn => ?_⟩
  rcases le_or_gt 0 x with h0 | h0
  · obtain ⟨b1, b2⟩ := nearest_bounds_nonneg h0
    rw [nearest_nonneg h0]
    have hp : 0 ≤ ⌊x + 1 / 2⌋ := Int.floor_nonneg.mpr (by linarith)
    rw [abs_of_nonneg hp]
    rcases abs_eq (by norm_num : (0 : ℚ) ≤ 1 / 2) |>.mp hn with h2 | h2
    · have : x + 1 / 2 = n := by linarith
      rw [this, Int.floor_intCast] at hp ⊢
      rw [abs_of_nonneg hp]
    · have : x + 1 / 2 = ((n + 1 : ℤ) : ℚ) := by push_cast; linarith
      rw [this, Int.floor_intCast]
      have h3 : (-1 : ℚ) < n := by linarith
      have h4 : -1 < n := by exact_mod_cast h3
      rw [abs_of_nonneg (by omega)]; omega
  · rw [nearest_neg h0]
    have hp : ⌈x - 1 / 2⌉ ≤ 0 := Int.ceil_le.mpr (by push_cast; linarith)
    rw [abs_of_nonpos hp]
    rcases abs_eq (by norm_num : (0 : ℚ) ≤ 1 / 2) |>.mp hn with h2 | h2
    · have : x - 1 / 2 = ((n - 1 : ℤ) : ℚ) := by push_cast; linarith
      rw [this, Int.ceil_intCast]
      have h3 : (n : ℚ) < 1 := by linarith
      have h4 : n < 1 := by exact_mod_cast h3
      rw [abs_of_nonpos (by omega)]; omega
    · have : x - 1 / 2 = n := by linarith
      rw [this, Int.ceil_intCast] at hp ⊢
      rw [abs_of_nonpos hp]

/-- C152: the doubles left out are all rounded to the next integer away from zero: 0.49999999999999994 to 1, 2⁵²+1 to 2⁵²+2. -/
theorem C152_nearest_double_violated (x : ℚ) (hd : IsDouble x) (h : Misrounded x) :
    |nearest x| = |Coral.nearest x| + 1 ∧ 1 / 2 < |(nearest x : ℚ) - x| := by
  have key : ∀ y : ℚ, 0 ≤ y → IsDouble y → Misrounded y → |nearest y| = |Coral.nearest y| + 1 ∧ 1 / 2 < |(nearest y : ℚ) - y| := by
    intro y h0 hd h
    have h1 := (nearest_pos_cases hd h0).2 h
    have h2 := nearest_sign_nonneg h0
    have h3 := (nearest_bounds_nonneg h0).2
    rw [h1]
    refine ⟨by rw [abs_of_nonneg h2, abs_of_nonneg (by omega)], ?_⟩
    push_cast
    exact lt_of_lt_of_le (by linarith) (le_abs_self _)
  rcases le_or_gt 0 x with h0 | h0
  · exact key x h0 hd h
  · have := key (-x) (by linarith) (double_neg hd) (misrounded_neg h)
    rw [nearest_neg_eq h0.ne, nearest_odd, abs_neg, abs_neg] at this
    refine ⟨this.1, ?_⟩
    have h2 := this.2
    push_cast at h2
    rwa [show -(nearest x : ℚ) - -x = -((nearest x : ℚ) - x) by ring, abs_neg] at h2

example : nearest (7 / 2) = 4 ∧ nearest (-7 / 2) = -4 ∧ nearest (1 / 2 - 2 ^ (-54 : ℤ)) = 1 ∧ nearest (2 ^ 52 + 1) = 2 ^ 52 + 2 := by
  decide +kernel
example : IsDouble (7 / 2) ∧ ¬ Misrounded (7 / 2) := by
  refine ⟨⟨7, -1, by norm_num, by norm_num, by norm_num⟩, ?_⟩
  rintro (h | ⟨n, h, -, h2, -⟩)
  · norm_num at h
  · have : (n : ℚ) * 2 = 7 := by linarith
    have : n * 2 = 7 := by exact_mod_cast this
    omega
example : IsDouble (1 / 2 - 2 ^ (-54 : ℤ)) ∧ Misrounded (1 / 2 - 2 ^ (-54 : ℤ)) := by
  refine ⟨⟨2 ^ 53 - 1, -54, by norm_num, by norm_num, by norm_num⟩, Or.inl (abs_of_pos (by norm_num))⟩

/-! ### C153 -/

theorem err_small {x : ℚ} (h : |x| ≤ 1) : |fl x - x| ≤ 2 ^ (-52 : ℤ) := by
  refine le_trans (fl_error x) ?_
  have h1 : |x| * 2 ^ (-53 : ℤ) ≤ 1 * 2 ^ (-53 : ℤ) := mul_le_mul_of_nonneg_right h (two_zpow_pos _).le
  have h2 : (2 : ℚ) ^ (-1075 : ℤ) ≤ 2 ^ (-53 : ℤ) := zpow_le_zpow_right₀ (by norm_num) (by norm_num)
  refine le_trans (add_le_add h1 h2) ?_
  norm_num

theorem err_big {x : ℚ} (h : |x| ≤ 512) : |fl x - x| ≤ 2 ^ (-43 : ℤ) := by
  refine le_trans (fl_error x) ?_
  have h1 : |x| * 2 ^ (-53 : ℤ) ≤ 512 * 2 ^ (-53 : ℤ) := mul_le_mul_of_nonneg_right h (two_zpow_pos _).le
  have h2 : (2 : ℚ) ^ (-1075 : ℤ) ≤ 2 ^ (-53 : ℤ) := zpow_le_zpow_right₀ (by norm_num) (by norm_num)
  refine le_trans (add_le_add h1 h2) ?_
  norm_num

/-- The sum that is cut to an integer is within 2⁻⁴⁰ of the exact one. -/
theorem blend_floor {bg fg : Nat} {a : ℚ} (hb : bg ≤ 255) (hf : fg ≤ 255) (h0 : 0 ≤ a) (h1 : a ≤ 1) :
    ∃ w : ℚ, blend bg fg a = ⌊w⌋ ∧ |w - ((1 - a) * bg + a * fg + 1 / 2)| ≤ 2 ^ (-40 : ℤ) := by
  have hb' : (bg : ℚ) ≤ 255 := by exact_mod_cast hb
  have hf' : (fg : ℚ) ≤ 255 := by exact_mod_cast hf
  have hb0 : (0 : ℚ) ≤ bg := by positivity
  have hf0 : (0 : ℚ) ≤ fg := by positivity
  have d0 : IsDouble 0 := by simpa using double_int (n := 0) (by norm_num)
  have d1 : IsDouble 1 := by simpa using double_int (n := 1) (by norm_num)
  have d255 : IsDouble 255 := by simpa using double_int (n := 255) (by norm_num)
  have d510 : IsDouble 510 := by simpa using double_int (n := 510) (by norm_num)
  have e1 : |fl (1 - a) - (1 - a)| ≤ 2 ^ (-52 : ℤ) := err_small (by rw [abs_of_nonneg (by linarith)]; linarith)
  have b1 : 0 ≤ fl (1 - a) := le_fl d0 (by linarith)
  have b2 : fl (1 - a) ≤ 1 := fl_le d1 (by linarith)
  show ∃ w : ℚ, pyTrunc (fl (fl (fl (bg * fl (1 - a)) + fl (fg * a)) + 1 / 2)) = ⌊w⌋ ∧ _
  generalize fl (1 - a) = β at e1 b1 b2 ⊢
  have p1 : 0 ≤ bg * β := by positivity
  have p2 : bg * β ≤ 255 := le_trans (mul_le_mul hb' b2 b1 (by norm_num)) (by norm_num)
  have p3 : 0 ≤ fg * a := by positivity
  have p4 : fg * a ≤ 255 := le_trans (mul_le_mul hf' h1 h0 (by norm_num)) (by norm_num)
  have e2 : |fl (bg * β) - bg * β| ≤ 2 ^ (-43 : ℤ) := err_big (by rw [abs_of_nonneg p1]; linarith)
  have e3 : |fl (fg * a) - fg * a| ≤ 2 ^ (-43 : ℤ) := err_big (by rw [abs_of_nonneg p3]; linarith)
  have q1 : 0 ≤ fl (bg * β) := le_fl d0 p1
  have q2 : fl (bg * β) ≤ 255 := fl_le d255 p2
  have q3 : 0 ≤ fl (fg * a) := le_fl d0 p3
  have q4 : fl (fg * a) ≤ 255 := fl_le d255 p4
  have e4 : |fl (fl (bg * β) + fl (fg * a)) - (fl (bg * β) + fl (fg * a))| ≤ 2 ^ (-43 : ℤ) :=
    err_big (by rw [abs_of_nonneg (by linarith)]; linarith)
  have r1 : 0 ≤ fl (fl (bg * β) + fl (fg * a)) := le_fl d0 (by linarith)
  have r2 : fl (fl (bg * β) + fl (fg * a)) ≤ 510 := fl_le d510 (by linarith)
  have e5 : |fl (fl (fl (bg * β) + fl (fg * a)) + 1 / 2) - (fl (fl (bg * β) + fl (fg * a)) + 1 / 2)| ≤ 2 ^ (-43 : ℤ) :=
    err_big (by rw [abs_of_nonneg (by linarith)]; linarith)
  have s1 : 0 ≤ fl (fl (fl (bg * β) + fl (fg * a)) + 1 / 2) := le_fl d0 (by linarith)
  have e6 : |bg * β - bg * (1 - a)| ≤ 255 * 2 ^ (-52 : ℤ) := by
    rw [← mul_sub, abs_mul, abs_of_nonneg hb0]
    exact mul_le_mul hb' e1 (abs_nonneg _) (by norm_num)
  refine ⟨_, trunc_floor s1, ?_⟩
  generalize fl (fl (fl (bg * β) + fl (fg * a)) + 1 / 2) = w at e5 s1 ⊢
  generalize fl (fl (bg * β) + fl (fg * a)) = v at e4 e5 r1 r2
  generalize fl (bg * β) = s at *
  generalize fl (fg * a) = t at *
  have hsum : w - ((1 - a) * bg + a * fg + 1 / 2) = (w - (v + 1 / 2)) + (v - (s + t)) + (s - bg * β) + (t - fg * a) + (bg * β - bg * (1 - a)) := by ring
  rw [hsum]
  refine le_trans (abs_add_le _ _) (le_trans (add_le_add (le_trans (abs_add_le _ _) (add_le_add (le_trans (abs_add_le _ _)
    (add_le_add (le_trans (abs_add_le _ _) (add_le_add e5 e4)) e2)) e3)) e6) ?_)
  norm_num

theorem tiny : (2 : ℚ) ^ (-40 : ℤ) < 1 / 4 := by norm_num

/-- C153: blending two bytes with any float alpha from 0 to 1 gives an integer between them, within a half and 2⁻⁴⁰ of the exact mix. -/
theorem C153_blend_double_between (bg fg : Nat) (a : ℚ) (hb : bg ≤ 255) (hf : fg ≤ 255) (h0 : 0 ≤ a) (h1 : a ≤ 1) :
    (min bg fg : Int) ≤ blend bg fg a ∧ blend bg fg a ≤ (max bg fg : Int) ∧
      |(blend bg fg a : ℚ) - ((1 - a) * bg + a * fg)| ≤ 1 / 2 + 2 ^ (-40 : ℤ) := by
  obtain ⟨w, hw, he⟩ := blend_floor hb hf h0 h1
  rw [hw]
  obtain ⟨k1, k2⟩ := abs_le.mp he
  have ht := tiny
  generalize (2 : ℚ) ^ (-40 : ℤ) = ε at *
  have f1 := Int.floor_le w
  have f2 := Int.lt_floor_add_one w
  have hm : ((min bg fg : Int) : ℚ) ≤ (1 - a) * bg + a * fg := by
    have m1 : ((min bg fg : Int) : ℚ) ≤ bg := by exact_mod_cast min_le_left (bg : Int) fg
    have m2 : ((min bg fg : Int) : ℚ) ≤ fg := by exact_mod_cast min_le_right (bg : Int) fg
    nlinarith
  have hM : (1 - a) * bg + a * fg ≤ ((max bg fg : Int) : ℚ) := by
    have m1 : (bg : ℚ) ≤ ((max bg fg : Int) : ℚ) := by exact_mod_cast le_max_left (bg : Int) fg
    have m2 : (fg : ℚ) ≤ ((max bg fg : Int) : ℚ) := by exact_mod_cast le_max_right (bg : Int) fg
    nlinarith
  refine ⟨Int.le_floor.mpr (by linarith), ?_, ?_⟩
  · have : ⌊w⌋ < max (bg : Int) fg + 1 := Int.floor_lt.mpr (by push_cast at *; linarith)
    omega
  · rw [abs_le]
    constructor <;> linarith

/-- C153: unless the exact mix is within 2⁻⁴⁰ of a half, the blended value is the one of exact arithmetic (C47). -/
theorem C153_blend_double_exact (bg fg : Nat) (a : ℚ) (hb : bg ≤ 255) (hf : fg ≤ 255) (h0 : 0 ≤ a) (h1 : a ≤ 1)
    (h : ∀ n : ℤ, 2 ^ (-40 : ℤ) < |(1 - a) * bg + a * fg + 1 / 2 - n|) : blend bg fg a = Coral.blend (bg : ℚ) fg a := by
  obtain ⟨w, hw, he⟩ := blend_floor hb hf h0 h1
  rw [hw, blend_eq_mix (by positivity) (by positivity) h0 h1, Mix]
  obtain ⟨k1, k2⟩ := abs_le.mp he
  rw [show (bg : ℚ) + (fg - bg) * a + 1 / 2 = (1 - a) * bg + a * fg + 1 / 2 by ring]
  generalize (1 - a) * (bg : ℚ) + a * fg + 1 / 2 = y at *
  have f1 := Int.floor_le y
  have f2 := Int.lt_floor_add_one y
  have n1 := h ⌊y⌋
  have n2 := h (⌊y⌋ + 1)
  push_cast at n2
  rw [abs_of_nonneg (by linarith)] at n1
  rw [abs_of_nonpos (by linarith)] at n2
  rw [Int.floor_eq_iff]
  constructor <;> linarith

/-- C153: no alpha keeps the background, full alpha gives the foreground. -/
theorem C153_blend_double_ends (bg fg : Nat) (hb : bg ≤ 255) (hf : fg ≤ 255) : blend bg fg 0 = bg ∧ blend bg fg 1 = fg := by
  have ht := tiny
  constructor
  · obtain ⟨w, hw, he⟩ := blend_floor (a := 0) hb hf le_rfl zero_le_one
    obtain ⟨k1, k2⟩ := abs_le.mp he
    generalize (2 : ℚ) ^ (-40 : ℤ) = ε at *
    rw [hw, Int.floor_eq_iff]
    push_cast
    constructor <;> linarith
  · obtain ⟨w, hw, he⟩ := blend_floor (a := 1) hb hf zero_le_one le_rfl
    obtain ⟨k1, k2⟩ := abs_le.mp he
    generalize (2 : ℚ) ^ (-40 : ℤ) = ε at *
    rw [hw, Int.floor_eq_iff]
    push_cast
    constructor <;> linarith

/-- C153: alpha larger by at least 2⁻³⁹ does not move the result away from the foreground. -/
theorem C153_blend_double_monotone_partial (bg fg : Nat) (a a' : ℚ) (hb : bg ≤ 255) (hf : fg ≤ 255) (h0 : 0 ≤ a) (ha : a + 2 ^ (-39 : ℤ) ≤ a')
    (h1 : a' ≤ 1) : (bg ≤ fg → blend bg fg a ≤ blend bg fg a') ∧ (fg ≤ bg → blend bg fg a' ≤ blend bg fg a) := by
  have hlt : a ≤ a' := le_trans (le_add_of_nonneg_right (two_zpow_pos _).le) ha
  have e : (2 : ℚ) ^ (-39 : ℤ) = 2 * 2 ^ (-40 : ℤ) := by norm_num
  rw [e] at ha
  by_cases hEq : bg = fg
  · subst hEq
    have u1 := C153_blend_double_between bg bg a hb hf h0 (by linarith)
    have u2 := C153_blend_double_between bg bg a' hb hf (by linarith) h1
    rw [min_self, max_self] at u1 u2
    have := u1.1; have := u1.2.1; have := u2.1; have := u2.2.1
    constructor <;> intro _ <;> omega
  · obtain ⟨w, hw, he⟩ := blend_floor hb hf h0 (le_trans hlt h1)
    obtain ⟨w', hw', he'⟩ := blend_floor hb hf (le_trans h0 hlt) h1
    rw [hw, hw']
    obtain ⟨k1, k2⟩ := abs_le.mp he
    obtain ⟨k3, k4⟩ := abs_le.mp he'
    have hpos := two_zpow_pos (-40)
    generalize (2 : ℚ) ^ (-40 : ℤ) = ε at *
    constructor
    · intro h
      have h2 : (1 : ℚ) ≤ fg - bg := by
        have : (bg : ℚ) + 1 ≤ fg := by exact_mod_cast (by omega : bg + 1 ≤ fg)
        linarith
      apply Int.floor_le_floor
      nlinarith
    · intro h
      have h2 : (1 : ℚ) ≤ bg - fg := by
        have : (fg : ℚ) + 1 ≤ bg := by exact_mod_cast (by omega : fg + 1 ≤ bg)
        linarith
      apply Int.floor_le_floor
      nlinarith

/-- C153: one unit in the last place more alpha can give less of the foreground. -/
theorem C153_blend_double_monotone_violated :
    ∃ a a' : ℚ, IsDouble a ∧ IsDouble a' ∧ 0 ≤ a ∧ a < a' ∧ a' ≤ 1 ∧ blend 167 198 a = 181 ∧ blend 167 198 a' = 180 := by
  refine ⟨(0x1bdef7bdef7bda : ℤ) * 2 ^ (-54 : ℤ), (0x1bdef7bdef7bdb : ℤ) * 2 ^ (-54 : ℤ), double_mk (by norm_num) (by norm_num),
    double_mk (by norm_num) (by norm_num), by norm_num, by norm_num, by norm_num, ?_, ?_⟩
  · decide +kernel
  · decide +kernel

example : blend 10 20 (1 / 4) = 13 ∧ blend 10 20 (3 / 8) = 14 ∧ blend 0 255 (1 / 2) = 128 := by decide +kernel
example : ∀ n : ℤ, (2 : ℚ) ^ (-40 : ℤ) < |(1 - 3 / 8 : ℚ) * ((10 : Nat) : ℚ) + 3 / 8 * ((20 : Nat) : ℚ) + 1 / 2 - n| := by
  intro n
  have h : (1 : ℚ) / 4 ≤ |(1 - 3 / 8 : ℚ) * ((10 : Nat) : ℚ) + 3 / 8 * ((20 : Nat) : ℚ) + 1 / 2 - n| := by
    rcases le_or_gt n 14 with h | h
    · have : (n : ℚ) ≤ 14 := by exact_mod_cast h
      exact le_abs.mpr (Or.inl (by push_cast; linarith))
    · have : (15 : ℚ) ≤ n := by exact_mod_cast h
      exact le_abs.mpr (Or.inr (by push_cast; linarith))
  exact lt_of_lt_of_le tiny h

/-! ### C154 -/

theorem double_zero : IsDouble 0 := by simpa using double_int (n := 0) (by norm_num)

theorem double_pow {e : ℤ} (h : -1074 ≤ e) : IsDouble (2 ^ e) := by simpa using double_mk (m := 1) (by norm_num) h

theorem fl_zero_iff (x : ℚ) : fl x = 0 ↔ |x| ≤ 2 ^ (-1075 : ℤ) := by
  have e : (2 : ℚ) ^ (-1074 : ℤ) = 2 * 2 ^ (-1075 : ℤ) := by
    rw [show (-1074 : ℤ) = 1 + -1075 by norm_num, zpow_add₀ (by norm_num)]; rfl
  have hp := two_zpow_pos (-1075)
  constructor
  · have key : ∀ y : ℚ, 0 ≤ y → fl y = 0 → |y| ≤ 2 ^ (-1075 : ℤ) := by
      intro y hy h
      have h1 := fl_nearest y (double_pow (e := -1074) le_rfl)
      rw [h, zero_sub, abs_neg, abs_of_nonneg hy] at h1
      rw [abs_of_nonneg hy]
      rw [e] at h1
      generalize (2 : ℚ) ^ (-1075 : ℤ) = ε at *
      rcases le_or_gt 0 (2 * ε - y) with h2 | h2
      · rw [abs_of_nonneg h2] at h1; linarith
      · rw [abs_of_neg h2] at h1; linarith
    intro h
    rcases le_or_gt 0 x with h0 | h0
    · exact key x h0 h
    · rw [← abs_neg]; exact key (-x) (by linarith) (by rw [fl_neg, h, neg_zero])
  · intro h
    by_cases hx : x = 0
    · rw [hx]; exact fl_id double_zero
    have hle : expOf x ≤ -1074 := by
      refine exp_le hx le_rfl (lt_of_le_of_lt h ?_)
      exact zpow_lt_zpow_right₀ (by norm_num) (by norm_num)
    have he : expOf x = -1074 := le_antisymm hle (exp_ge x)
    rw [fl, he]
    have h2 : |x / 2 ^ (-1074 : ℤ)| ≤ 1 / 2 := by
      rw [abs_div, abs_of_pos (two_zpow_pos (-1074)), e, div_le_iff₀ (by positivity)]
      linarith
    obtain ⟨k1, k2⟩ := abs_le.mp h2
    generalize x / (2 : ℚ) ^ (-1074 : ℤ) = y at k1 k2
    have h3 : pyRound y = 0 := by
      rcases lt_or_ge y 0 with h | h
      · have hf : ⌊y⌋ = -1 := by rw [Int.floor_eq_iff]; push_cast; constructor <;> linarith
        simp only [pyRound, hf]
        push_cast
        split_ifs <;> first | rfl | (exfalso; linarith) | omega
      · have hf : ⌊y⌋ = 0 := by rw [Int.floor_eq_iff]; push_cast; constructor <;> linarith
        simp only [pyRound, hf]
        push_cast
        split_ifs <;> first | rfl | (exfalso; linarith) | omega
    rw [h3]
    simp

/-- The corners are floats. -/
def Doubles (b : BBox ℚ) : Prop := IsDouble b.x0 ∧ IsDouble b.y0 ∧ IsDouble b.x1 ∧ IsDouble b.y1

/-- Both sides are at least 2⁻⁵³⁷ (about 10⁻¹⁶²) long, or exactly zero. -/
def NotTiny (b : BBox ℚ) : Prop := (b.x0 = b.x1 ∨ 2 ^ (-537 : ℤ) ≤ |b.x1 - b.x0|) ∧ (b.y0 = b.y1 ∨ 2 ^ (-537 : ℤ) ≤ |b.y1 - b.y0|)

theorem truthy_iff (b : BBox ℚ) : truthy b = true ↔ 2 ^ (-1075 : ℤ) < |fl (b.x1 - b.x0) * fl (b.y1 - b.y0)| := by
  rw [truthy, decide_eq_true_iff, area, Ne, fl_zero_iff, not_le]

theorem fl_far {x : ℚ} {e : ℤ} (he : -1074 ≤ e) (h : 2 ^ e ≤ |x|) : 2 ^ e ≤ |fl x| := by
  rcases le_or_gt 0 x with h0 | h0
  · rw [abs_of_nonneg h0] at h
    exact le_trans (le_fl (double_pow he) h) (le_abs_self _)
  · rw [abs_of_neg h0] at h
    have := le_fl (double_pow he) h
    rw [fl_neg] at this
    exact le_trans this (neg_le_abs _)

theorem truthy_eq {b : BBox ℚ} (h : NotTiny b) : truthy b = b.truthy := by
  rw [Bool.eq_iff_iff, truthy_iff, BBox.truthy_iff]
  have f0 : fl 0 = 0 := fl_id double_zero
  have hp := two_zpow_pos (-1075)
  constructor
  · intro h1
    constructor
    · intro hc
      rw [hc, sub_self, f0, zero_mul, abs_zero] at h1
      exact absurd h1 (not_lt.mpr hp.le)
    · intro hc
      rw [hc, sub_self, f0, mul_zero, abs_zero] at h1
      exact absurd h1 (not_lt.mpr hp.le)
  · rintro ⟨n1, n2⟩
    have h1 := fl_far (by norm_num) (h.1.resolve_left n1)
    have h2 := fl_far (by norm_num) (h.2.resolve_left n2)
    rw [abs_mul]
    refine lt_of_lt_of_le ?_ (mul_le_mul h1 h2 (two_zpow_pos _).le (abs_nonneg _))
    rw [← zpow_add₀ (by norm_num)]
    exact zpow_lt_zpow_right₀ (by norm_num) (by norm_num)

/-- C154: for boxes whose sides are zero or at least 2⁻⁵³⁷ long, `bool`, `|` and `&` on floats do exactly what they do in exact arithmetic. -/
theorem C154_boxes_of_floats_partial (a b : BBox ℚ) (ha : NotTiny a) (hb : NotTiny b) :
    truthy a = a.truthy ∧ union a b = a.union b ∧ inter a b = a.inter b ∧
    ∀ p, (inter a b).hasPoint p = true ↔ a.hasPoint p = true ∧ b.hasPoint p = true := by
  have hi : inter a b = a.inter b := by simp only [inter, BBox.inter, truthy_eq ha, truthy_eq hb]
  refine ⟨truthy_eq ha, by simp only [union, BBox.union, truthy_eq ha, truthy_eq hb], hi, fun p => ?_⟩
  rw [hi, BBox.hasPoint_iff, BBox.hasPoint_iff, BBox.hasPoint_iff, BBox.inter_inside]

/-- C154: when a box is true, for any floats: the rounded area is not zero, that is the product of the rounded sides is above 2⁻¹⁰⁷⁵. -/
theorem C154_true_iff_area (b : BBox ℚ) : truthy b = true ↔ 2 ^ (-1075 : ℤ) < |fl (b.x1 - b.x0) * fl (b.y1 - b.y0)| := truthy_iff b

/-- C154: the sides of a box of floats never vanish by rounding, only their product does. -/
theorem C154_sides_do_not_vanish (x0 x1 : ℚ) (h0 : IsDouble x0) (h1 : IsDouble x1) : fl (x1 - x0) = 0 ↔ x0 = x1 := by
  constructor
  · intro h
    obtain ⟨m, e, hm, he, hx⟩ := h0
    obtain ⟨m', e', hm', he', hx'⟩ := h1
    obtain ⟨n, hn⟩ := double_grid hm hx (E := -1074) (Or.inl he)
    obtain ⟨n', hn'⟩ := double_grid hm' hx' (E := -1074) (Or.inl he')
    rw [fl_zero_iff, hn, hn', ← sub_mul, abs_mul, abs_of_pos (two_zpow_pos _)] at h
    have e1 : (2 : ℚ) ^ (-1074 : ℤ) = 2 * 2 ^ (-1075 : ℤ) := by
      rw [show (-1074 : ℤ) = 1 + -1075 by norm_num, zpow_add₀ (by norm_num)]; rfl
    have hp := two_zpow_pos (-1075)
    rw [e1] at h
    generalize (2 : ℚ) ^ (-1075 : ℤ) = ε at *
    have h2 : |((n' - n : ℤ) : ℚ)| * 2 ≤ 1 := by
      push_cast
      by_contra hc
      push Not at hc
      nlinarith
    have h3 : |n' - n| * 2 ≤ 1 := by exact_mod_cast h2
    have h4 : |n' - n| = 0 := by have := abs_nonneg (n' - n); omega
    have : n' = n := by have := abs_eq_zero.mp h4; omega
    rw [hn, hn', this]
  · intro h
    rw [h, sub_self]; exact fl_id double_zero

theorem small_false : truthy ⟨0, 0, 2 ^ (-600 : ℤ), 2 ^ (-600 : ℤ)⟩ = false := by
  rw [← Bool.not_eq_true, truthy_iff, not_lt]
  show |fl ((2 : ℚ) ^ (-600 : ℤ) - 0) * fl ((2 : ℚ) ^ (-600 : ℤ) - 0)| ≤ 2 ^ (-1075 : ℤ)
  rw [sub_zero, fl_id (double_pow (by norm_num)), ← zpow_add₀ (by norm_num), abs_of_pos (two_zpow_pos _)]
  exact zpow_le_zpow_right₀ (by norm_num) (by norm_num)

/-- C154: a box of positive width and height can be false: a union then loses it, and its intersection with itself has no points. -/
theorem C154_boxes_of_floats_violated :
    ∃ a b : BBox ℚ, Doubles a ∧ Doubles b ∧ a.Proper ∧ b.Proper ∧ truthy a = false ∧
      (∃ p, a.Covers p ∧ ¬ (union a b).Covers p ∧ ¬ (union b a).Covers p) ∧
      (∃ p, a.hasPoint p = true) ∧ ∀ q, (inter a a).hasPoint q = false := by
  have d1 : IsDouble 1 := by simpa using double_int (n := 1) (by norm_num)
  have d2 : IsDouble 2 := by simpa using double_int (n := 2) (by norm_num)
  have hp := two_zpow_pos (-600)
  have hb : truthy ⟨1, 1, 2, 2⟩ = true := by decide +kernel
  refine ⟨⟨0, 0, 2 ^ (-600 : ℤ), 2 ^ (-600 : ℤ)⟩, ⟨1, 1, 2, 2⟩,
    ⟨double_zero, double_zero, double_pow (by norm_num), double_pow (by norm_num)⟩, ⟨d1, d1, d2, d2⟩, ⟨hp, hp⟩, ⟨by norm_num, by norm_num⟩,
    small_false, ⟨(0, 0), ⟨le_rfl, hp.le, le_rfl, hp.le⟩, ?_, ?_⟩, ⟨(0, 0), ?_⟩, ?_⟩
  · rw [union, small_false]
    rintro ⟨h, -⟩
    norm_num at h
  · rw [union, hb, small_false]
    rintro ⟨h, -⟩
    norm_num at h
  · rw [BBox.hasPoint_iff]; exact ⟨le_rfl, hp, le_rfl, hp⟩
  · intro q
    rw [inter, small_false, ← Bool.not_eq_true, BBox.hasPoint_iff]
    exact BBox.empty_inside q

example : NotTiny ⟨0, 0, 3, 1 / 4⟩ ∧ NotTiny ⟨5, 5, 5, 9⟩ := by
  have h : (2 : ℚ) ^ (-537 : ℤ) ≤ 2 ^ (-2 : ℤ) := zpow_le_zpow_right₀ (by norm_num) (by norm_num)
  have h2 : (2 : ℚ) ^ (-2 : ℤ) = 1 / 4 := by norm_num
  rw [h2] at h
  refine ⟨⟨Or.inr ?_, Or.inr ?_⟩, ⟨Or.inl rfl, Or.inr ?_⟩⟩ <;> refine le_trans h ?_ <;> norm_num
example : union ⟨0, 0, 3, 1⟩ ⟨2, 2, 5, 5⟩ = ⟨0, 0, 5, 5⟩ ∧ inter ⟨0, 0, 3, 3⟩ ⟨2, 2, 5, 5⟩ = ⟨2, 2, 3, 3⟩ := by decide +kernel

/-! ### C155 -/

theorem center_between {x y : ℚ} (hx : IsDouble x) (hy : IsDouble y) (h : x ≤ y) : x ≤ fl (fl (x + y) / 2) ∧ fl (fl (x + y) / 2) ≤ y := by
  have dbl : ∀ {z : ℚ}, IsDouble z → IsDouble (2 * z) := by
    rintro z ⟨m, e, hm, he, rfl⟩
    exact ⟨m, e + 1, hm, by omega, by rw [zpow_add₀ (by norm_num), zpow_one]; ring⟩
  have h1 := le_fl (dbl hx) (show 2 * x ≤ x + y by linarith)
  have h2 := fl_le (dbl hy) (show x + y ≤ 2 * y by linarith)
  exact ⟨le_fl hx (by linarith), fl_le hy (by linarith)⟩

/-- C155: the centre of a box of floats lies in the box. -/
theorem C155_centre_in_box (b : BBox ℚ) (hd : Doubles b) (h : b.WF) : b.Covers (center b) := by
  obtain ⟨d1, d2, d3, d4⟩ := hd
  obtain ⟨a1, a2⟩ := center_between d1 d3 h.1
  obtain ⟨a3, a4⟩ := center_between d2 d4 h.2
  exact ⟨a1, a2, a3, a4⟩

/-- C155: moving keeps the corners in order, and what lies in the closed box still does after both have moved. -/
theorem C155_moved_points (b : BBox ℚ) (dx dy : ℚ) (h : b.WF) :
    (translate b dx dy).WF ∧ ∀ x y, b.Covers (x, y) → (translate b dx dy).Covers (fl (x + dx), fl (y + dy)) := by
  refine ⟨⟨fl_mono (by linarith [h.1]), fl_mono (by linarith [h.2])⟩, ?_⟩
  rintro x y ⟨h1, h2, h3, h4⟩
  simp only at h1 h2 h3 h4
  exact ⟨fl_mono (by linarith), fl_mono (by linarith), fl_mono (by linarith), fl_mono (by linarith)⟩

/-- C155: scaling by a factor of at least zero keeps the corners in order, and the centre of the original inside. -/
theorem C155_scaled (b : BBox ℚ) (f : ℚ) (h : b.WF) (hf : 0 ≤ f) : (scale b f).WF ∧ (scale b f).Covers (center b) := by
  have c1 : IsDouble (center b).1 := fl_double _
  have c2 : IsDouble (center b).2 := fl_double _
  have f0 : 0 ≤ fl (f / 2) := le_fl double_zero (by linarith)
  have w0 : 0 ≤ fl (b.x1 - b.x0) := le_fl double_zero (by linarith [h.1])
  have h0 : 0 ≤ fl (b.y1 - b.y0) := le_fl double_zero (by linarith [h.2])
  have w1 : 0 ≤ fl (fl (b.x1 - b.x0) * fl (f / 2)) := le_fl double_zero (mul_nonneg w0 f0)
  have h1 : 0 ≤ fl (fl (b.y1 - b.y0) * fl (f / 2)) := le_fl double_zero (mul_nonneg h0 f0)
  refine ⟨⟨fl_mono (by linarith), fl_mono (by linarith)⟩, fl_le c1 ?_, le_fl c1 ?_, fl_le c2 ?_, le_fl c2 ?_⟩ <;> linarith

theorem back_close (x d : ℚ) : |fl (fl (x + d) + -d) - x| ≤ (|x| + 2 * |x + d|) * 2 ^ (-53 : ℤ) + 3 * 2 ^ (-1075 : ℤ) := by
  have e1 := fl_error (x + d)
  have e2 := fl_error (fl (x + d) + -d)
  have hu := two_zpow_pos (-53)
  have hu1 : (2 : ℚ) ^ (-53 : ℤ) ≤ 1 := by norm_num
  have hη := two_zpow_pos (-1075)
  generalize (2 : ℚ) ^ (-53 : ℤ) = u at *
  generalize (2 : ℚ) ^ (-1075 : ℤ) = η at *
  generalize fl (fl (x + d) + -d) = r at *
  generalize fl (x + d) = s at *
  have e3 : |s + -d| ≤ |x| + |s - (x + d)| := by
    rw [show s + -d = x + (s - (x + d)) by ring]; exact abs_add_le _ _
  have e4 : |r - x| ≤ |r - (s + -d)| + |s - (x + d)| := by
    rw [show r - x = (r - (s + -d)) + (s - (x + d)) by ring]; exact abs_add_le _ _
  have k0 := abs_nonneg (x + d)
  have k1 : |s + -d| * u ≤ (|x| + (|x + d| * u + η)) * u := mul_le_mul_of_nonneg_right (by linarith) hu.le
  have k2 : |x + d| * u * u ≤ |x + d| * u * 1 := mul_le_mul_of_nonneg_left hu1 (by positivity)
  have k3 : η * u ≤ η * 1 := mul_le_mul_of_nonneg_left hu1 hη.le
  nlinarith

/-- C155: moving there and back brings each corner back up to the rounding of two additions. -/
theorem C155_there_and_back_partial (b : BBox ℚ) (dx dy : ℚ) :
    let r := translate (translate b dx dy) (-dx) (-dy)
    let close (x d y : ℚ) := |y - x| ≤ (|x| + 2 * |x + d|) * 2 ^ (-53 : ℤ) + 3 * 2 ^ (-1075 : ℤ)
    close b.x0 dx r.x0 ∧ close b.y0 dy r.y0 ∧ close b.x1 dx r.x1 ∧ close b.y1 dy r.y1 :=
  ⟨back_close _ _, back_close _ _, back_close _ _, back_close _ _⟩

/-- C155: moving there and back is exact when the moved corners are floats, in particular for integers up to 2⁵³. -/
theorem C155_there_and_back_exact (b : BBox ℚ) (dx dy : ℚ) (hd : Doubles b) (h : Doubles (b.translate dx dy)) :
    translate b dx dy = b.translate dx dy ∧ translate (translate b dx dy) (-dx) (-dy) = b := by
  obtain ⟨h1, h2, h3, h4⟩ := h
  have e : translate b dx dy = b.translate dx dy := by
    simp only [translate, BBox.translate, BBox.ofCorners] at *
    rw [fl_id h1, fl_id h2, fl_id h3, fl_id h4]
  refine ⟨e, ?_⟩
  rw [e]
  obtain ⟨d1, d2, d3, d4⟩ := hd
  simp only [translate, BBox.translate, BBox.ofCorners, add_neg_cancel_right]
  rw [fl_id d1, fl_id d2, fl_id d3, fl_id d4]

/-- C155: a small box moved far away and back can lose its extent and its place. -/
theorem C155_there_and_back_violated :
    ∃ (b : BBox ℚ) (d : ℚ), Doubles b ∧ IsDouble d ∧ b.Proper ∧ truthy b = true ∧
      translate (translate b d d) (-d) (-d) ≠ b ∧ truthy (translate (translate b d d) (-d) (-d)) = false := by
  have d1 : IsDouble (1 / 4) := ⟨1, -2, by norm_num, by norm_num, by norm_num⟩
  have d2 : IsDouble (3 / 8) := ⟨3, -3, by norm_num, by norm_num, by norm_num⟩
  have d3 : IsDouble (2 ^ 52) := ⟨1, 52, by norm_num, by norm_num, by norm_num⟩
  refine ⟨⟨1 / 4, 1 / 4, 3 / 8, 3 / 8⟩, 2 ^ 52, ⟨d1, d1, d2, d2⟩, d3, ⟨by norm_num, by norm_num⟩, ?_, ?_, ?_⟩ <;> decide +kernel

example : center ⟨1, 1, 2, 4⟩ = (3 / 2, 5 / 2) ∧ translate ⟨1, 1, 2, 4⟩ 10 20 = ⟨11, 21, 12, 24⟩ ∧ scale ⟨1, 1, 3, 5⟩ 3 = ⟨-1, -3, 5, 9⟩ := by
  decide +kernel
example : Doubles ⟨1, 1, 2, 4⟩ ∧ Doubles ((⟨1, 1, 2, 4⟩ : BBox ℚ).translate 10 20) := by
  have key : ∀ n : ℤ, |n| ≤ 2 ^ 53 → IsDouble n := fun n h => double_int h
  refine ⟨⟨?_, ?_, ?_, ?_⟩, ⟨?_, ?_, ?_, ?_⟩⟩ <;> simp only [BBox.translate, BBox.ofCorners]
  · simpa using key 1 (by norm_num)
  · simpa using key 1 (by norm_num)
  · simpa using key 2 (by norm_num)
  · simpa using key 4 (by norm_num)
  · have := key 11 (by norm_num); norm_num at this ⊢; exact this
  · have := key 21 (by norm_num); norm_num at this ⊢; exact this
  · have := key 12 (by norm_num); norm_num at this ⊢; exact this
  · have := key 24 (by norm_num); norm_num at this ⊢; exact this

end Flt
end Coral
