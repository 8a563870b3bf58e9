import Verif.Model.FloatsC
import Verif.Props.FloatsD
import Verif.Spec.Coord
import Verif.Props.Coord
import Mathlib.Analysis.Real.Pi.Bounds

set_option linter.unusedSectionVars false

/-!
# Bearings and angles as floats (C163, C164)
-/
namespace Coral
namespace Flt

/-- The part of `(b + 360) % 360` that does not depend on the sign of `fl (b + 360)`. -/
theorem fmod_facts {b : ℚ} (hb : IsDouble b) : ∃ N : ℤ, fmod (fl (b + 360)) 360 = fl (b + 360) - 360 * N ∧
    0 ≤ fmod (fl (b + 360)) 360 ∧ fmod (fl (b + 360)) 360 ≤ 360 - 2 ^ (-44 : ℤ) := by
  have d360 : IsDouble (-360) := by simpa using double_int (n := -360) (by norm_num)
  have e44 : (2 : ℚ) ^ (-44 : ℤ) = 1 / 17592186044416 := by norm_num
  have hdv : IsDouble (fl (b + 360)) := fl_double _
  have big : ∀ d : ℚ, IsDouble d → 256 ≤ |d| → ∃ n : ℤ, d = n * 2 ^ (-44 : ℤ) := by
    rintro d ⟨m, e, hm, he, hd⟩ h
    exact double_grid hm hd (Or.inr (by norm_num; exact h))
  obtain ⟨G, hG⟩ : ∃ G : ℤ, G = 17592186044416 := ⟨_, rfl⟩
  have eG : (G : ℚ) * 2 ^ (-44 : ℤ) = 1 := by rw [hG]; norm_num
  have hp : (0 : ℚ) < 2 ^ (-44 : ℤ) := two_zpow_pos _
  -- numbers on the grid, below 360
  have grid : ∀ n : ℤ, (n : ℚ) * 2 ^ (-44 : ℤ) < 360 → (n : ℚ) * 2 ^ (-44 : ℤ) ≤ 360 - 2 ^ (-44 : ℤ) := by
    intro n h
    have h2 : (n : ℚ) * 2 ^ (-44 : ℤ) < ((360 * G : ℤ) : ℚ) * 2 ^ (-44 : ℤ) := by push_cast; linarith
    have h3 : (n : ℚ) < ((360 * G : ℤ) : ℚ) := lt_of_mul_lt_mul_right h2 hp.le
    have h4 : n + 1 ≤ 360 * G := by exact_mod_cast h3
    have h5 : (n : ℚ) + 1 ≤ ((360 * G : ℤ) : ℚ) := by exact_mod_cast h4
    have := mul_le_mul_of_nonneg_right h5 hp.le
    push_cast at this
    linarith
  have vneg : fl (b + 360) < 0 → ∃ n : ℤ, fl (b + 360) = n * 2 ^ (-44 : ℤ) := by
    intro hv
    have hb0 : b < -360 := by
      by_contra hc
      push Not at hc
      exact absurd (le_fl double_zero (by linarith : 0 ≤ b + 360)) (by linarith)
    obtain ⟨n, hn⟩ := big b hb (by rw [abs_of_neg (by linarith)]; linarith)
    by_cases hs : 256 ≤ |fl (b + 360)|
    · exact big _ hdv hs
    · push Not at hs
      have hz : b + 360 = ((n + 360 * G : ℤ) : ℚ) * 2 ^ (-44 : ℤ) := by
        push_cast; rw [add_mul, ← hn, mul_assoc, eG]; ring
      refine ⟨n + 360 * G, ?_⟩
      rw [hz]
      refine fl_id (double_mk ?_ (by norm_num))
      have h1 : |b + 360| ≤ 256 := by
        by_contra hc
        push Not at hc
        have h256 : IsDouble (-256) := by simpa using double_int (n := -256) (by norm_num)
        have := fl_le h256 (x := b + 360) (by rw [abs_of_neg (by linarith)] at hc; linarith)
        rw [abs_of_neg hv] at hs
        linarith
      have h256 : (256 : ℚ) = ((256 * G : ℤ) : ℚ) * 2 ^ (-44 : ℤ) := by push_cast; rw [mul_assoc, eG]; ring
      rw [hz, abs_mul, abs_of_pos hp, h256] at h1
      have h2 := le_of_mul_le_mul_right h1 hp
      have h3 : |n + 360 * G| ≤ 256 * G := by rw [← Int.cast_abs] at h2; exact_mod_cast h2
      refine le_trans h3 ?_
      rw [hG]; norm_num
  generalize fl (b + 360) = v at *
  rcases le_or_gt 0 v with h0 | h0
  · -- the remainder as it is
    have ht : pyTrunc (v / 360) = ⌊v / 360⌋ := by rw [pyTrunc, if_pos (by positivity)]
    have hf := Int.floor_le (v / 360)
    have hf' := Int.lt_floor_add_one (v / 360)
    have hN0 : 0 ≤ ⌊v / 360⌋ := Int.floor_nonneg.mpr (by positivity)
    rw [le_div_iff₀ (by norm_num)] at hf
    rw [div_lt_iff₀ (by norm_num)] at hf'
    have hm : fmod v 360 = v - 360 * (⌊v / 360⌋ : ℚ) := by
      simp only [fmod, ht]
      rw [if_neg]
      rintro ⟨_, h2⟩
      apply h2
      constructor
      · intro h; norm_num at h
      · intro h; linarith
    refine ⟨_, hm, ?_, ?_⟩
    · rw [hm]; linarith
    rw [hm]
    by_cases hs : 256 ≤ v
    · obtain ⟨n, hn⟩ := big v hdv (by rw [abs_of_nonneg h0]; exact hs)
      have hz : v - 360 * (⌊v / 360⌋ : ℚ) = ((n - 360 * G * ⌊v / 360⌋ : ℤ) : ℚ) * 2 ^ (-44 : ℤ) := by
        generalize ⌊v / 360⌋ = q
        rw [hn]; push_cast; linear_combination (360 * (q : ℚ)) * eG
      rw [hz]
      refine grid _ ?_
      rw [← hz]
      linarith
    · have : (0 : ℚ) ≤ ⌊v / 360⌋ := by exact_mod_cast hN0
      rw [e44]
      linarith
  · obtain ⟨n, hn⟩ := vneg h0
    have ht : pyTrunc (v / 360) = ⌈v / 360⌉ := by
      rw [pyTrunc, if_neg (by push Not; exact div_neg_of_neg_of_pos h0 (by norm_num))]
    have hf := Int.le_ceil (v / 360)
    have hf' := Int.ceil_lt_add_one (v / 360)
    rw [div_le_iff₀ (by norm_num)] at hf
    have hf'' : ((⌈v / 360⌉ : ℚ) - 1) * 360 < v := by
      rw [← lt_div_iff₀ (by norm_num)]; linarith
    have hz : v - 360 * (⌈v / 360⌉ : ℚ) = ((n - 360 * G * ⌈v / 360⌉ : ℤ) : ℚ) * 2 ^ (-44 : ℤ) := by
      generalize ⌈v / 360⌉ = q
      rw [hn]; push_cast; linear_combination (360 * (q : ℚ)) * eG
    simp only [fmod, ht]
    generalize ⌈v / 360⌉ = q at *
    by_cases hm : v - 360 * (q : ℚ) = 0
    · rw [if_neg (fun h => h.1 hm)]
      exact ⟨q, rfl, hm.ge, by rw [hm, e44]; norm_num⟩
    · rw [if_pos ⟨hm, fun h => by
        have := h.mpr (lt_of_le_of_ne (by linarith) hm)
        norm_num at this⟩]
      have hz2 : v - 360 * (q : ℚ) + 360 = ((n - 360 * G * q + 360 * G : ℤ) : ℚ) * 2 ^ (-44 : ℤ) := by
        rw [hz]; push_cast; linear_combination (-360 : ℚ) * eG
      have hlt : v - 360 * (q : ℚ) + 360 < 360 := by
        have := lt_of_le_of_ne (by linarith : v - 360 * (q : ℚ) ≤ 0) hm
        linarith
      have hpos : 0 < v - 360 * (q : ℚ) + 360 := by linarith
      have hfl : fl (v - 360 * (q : ℚ) + 360) = v - 360 * (q : ℚ) + 360 := by
        refine fl_id ?_
        rw [hz2] at hlt hpos ⊢
        generalize n - 360 * G * q + 360 * G = w at *
        refine double_mk ?_ (by norm_num)
        have hw0 : (0 : ℚ) < w := (mul_pos_iff_of_pos_right hp).mp hpos
        have h2 : (w : ℚ) * 2 ^ (-44 : ℤ) < ((360 * G : ℤ) : ℚ) * 2 ^ (-44 : ℤ) := by push_cast; rw [mul_assoc, eG]; linarith
        have h3 : (w : ℚ) < ((360 * G : ℤ) : ℚ) := lt_of_mul_lt_mul_right h2 hp.le
        have h4 : w < 360 * G := by exact_mod_cast h3
        have h5 : 0 < w := by exact_mod_cast hw0
        rw [abs_of_pos h5, hG] at *
        refine le_trans h4.le ?_
        norm_num
      rw [hfl]
      refine ⟨q - 1, by push_cast; ring, hpos.le, ?_⟩
      rw [hz2] at hlt ⊢
      exact grid _ hlt

/-- **C163**: the hour of a float bearing is in (0, 12], and it is the exact hour of a bearing that differs from `b` by rounding only. -/
theorem C163_hours (b : ℚ) (hb : IsDouble b) : 0 < bearing2hours b ∧ bearing2hours b ≤ 12 ∧
    ∃ n : ℤ, |30 * bearing2hours b - (-b + 360 * n)| ≤ |b| * 2 ^ (-53 : ℤ) + 2 ^ (-42 : ℤ) := by
  obtain ⟨N, hN, h0, h1⟩ := fmod_facts hb
  have g : OnGrid (b + 360) := grid_add (grid_of_double hb) (by simpa using grid_int 360)
  have ev := grid_error g
  simp only [bearing2hours]
  have hv : fl (b + 360) = fmod (fl (b + 360)) 360 + 360 * N := by linarith
  rw [hv] at ev
  generalize fmod (fl (b + 360)) 360 = m at *
  have d12 : IsDouble 12 := by simpa using double_int (n := 12) (by norm_num)
  have dq : IsDouble (12 - 2 ^ (-49 : ℤ)) := by
    have := double_mk (m := 12 * 2 ^ 49 - 1) (e := -49) (by norm_num) (by norm_num)
    have e : (((12 * 2 ^ 49 - 1 : ℤ) : ℚ)) * 2 ^ (-49 : ℤ) = 12 - 2 ^ (-49 : ℤ) := by norm_num
    rwa [e] at this
  have d49 : IsDouble (2 ^ (-49 : ℤ)) := double_pow (by norm_num)
  have q0 : 0 ≤ fl (m / 30) := le_fl double_zero (by positivity)
  have q1 : fl (m / 30) ≤ 12 - 2 ^ (-49 : ℤ) := by
    refine fl_le dq ?_
    rw [div_le_iff₀ (by norm_num)]
    have : (2 : ℚ) ^ (-44 : ℤ) = 32 * 2 ^ (-49 : ℤ) := by norm_num
    rw [this] at h1
    have : (0 : ℚ) < 2 ^ (-49 : ℤ) := two_zpow_pos _
    linarith
  have p49 : (0 : ℚ) < 2 ^ (-49 : ℤ) := two_zpow_pos _
  refine ⟨lt_of_lt_of_le p49 (le_fl d49 (by linarith)), fl_le d12 (by linarith), N, ?_⟩
  have e1 := fl_error (m / 30)
  have e2 := grid_error (grid_sub (by simpa using grid_int 12) (grid_of_double (fl_double (m / 30))) : OnGrid (12 - fl (m / 30)))
  rw [abs_of_nonneg (by positivity : 0 ≤ m / 30)] at e1
  rw [abs_of_nonneg (by linarith : 0 ≤ 12 - fl (m / 30))] at e2
  have e42 : (2 : ℚ) ^ (-42 : ℤ) = 2048 * 2 ^ (-53 : ℤ) := by norm_num
  have e44 : (0 : ℚ) < 2 ^ (-44 : ℤ) := two_zpow_pos _
  rw [e42]
  have η1 : (2 : ℚ) ^ (-1075 : ℤ) ≤ 2 ^ (-53 : ℤ) := zpow_le_zpow_right₀ (by norm_num) (by norm_num)
  have hb' : |b + 360| ≤ |b| + 360 := le_trans (abs_add_le _ _) (by norm_num)
  have u0 : (0 : ℚ) < 2 ^ (-53 : ℤ) := two_zpow_pos _
  clear e42
  generalize (2 : ℚ) ^ (-53 : ℤ) = u at *
  generalize (2 : ℚ) ^ (-49 : ℤ) = w at *
  generalize (2 : ℚ) ^ (-44 : ℤ) = w' at *
  generalize (2 : ℚ) ^ (-1075 : ℤ) = η at *
  generalize fl (m / 30) = q at *
  generalize fl (12 - q) = h at *
  have t1 := mul_le_mul_of_nonneg_right hb' u0.le
  have t2 : m / 30 * u ≤ 12 * u := mul_le_mul_of_nonneg_right (by linarith) u0.le
  have t3 : (12 - q) * u ≤ 12 * u := mul_le_mul_of_nonneg_right (by linarith) u0.le
  rw [abs_le] at ev e1 e2 ⊢
  constructor <;> linarith [ev.1, ev.2, e1.1, e1.2, e2.1, e2.2]

/-- **C163**: no float bearing raises, and the name returned is that of a wind at most 11.25 degrees away on the circle, up to rounding. -/
theorem C163_cardinal (b : ℚ) (hb : IsDouble b) : ∃ name w, bearing2cardinal b = .ok name ∧ windBearing name = some w ∧
    ∃ n : ℤ, |b - w - 360 * n| ≤ 45 / 4 + (|b| * 2 ^ (-53 : ℤ) + 2 ^ (-42 : ℤ)) := by
  obtain ⟨N, hN, h0, h1⟩ := fmod_facts hb
  have g : OnGrid (b + 360) := grid_add (grid_of_double hb) (by simpa using grid_int 360)
  have ev := grid_error g
  simp only [bearing2cardinal]
  have hv : fl (b + 360) = fmod (fl (b + 360)) 360 + 360 * N := by linarith
  rw [hv] at ev
  generalize fmod (fl (b + 360)) 360 = m at *
  have p44 : (0 : ℚ) < 2 ^ (-44 : ℤ) := two_zpow_pos _
  have hm : m ≤ 360 := by linarith
  clear h1 p44
  have d720 : IsDouble 720 := by simpa using double_int (n := 720) (by norm_num)
  have d16 : IsDouble 16 := by simpa using double_int (n := 16) (by norm_num)
  have dh : IsDouble (33 / 2) := by
    have := double_mk (m := 33) (e := -1) (by norm_num) (by norm_num)
    norm_num at this; exact this
  have t0 : 0 ≤ fl (2 * m) := le_fl double_zero (by linarith)
  have t1 : fl (2 * m) ≤ 720 := fl_le d720 (by linarith)
  have i0 : 0 ≤ fl (fl (2 * m) / 45) := le_fl double_zero (by positivity)
  have i1 : fl (fl (2 * m) / 45) ≤ 16 := fl_le d16 (by rw [div_le_iff₀ (by norm_num)]; linarith)
  have e1 := fl_error (2 * m)
  have e2 := fl_error (fl (2 * m) / 45)
  have e3 := fl_error (fl (fl (2 * m) / 45) + 1 / 2)
  rw [abs_of_nonneg (by linarith : 0 ≤ 2 * m)] at e1
  rw [abs_of_nonneg (by positivity : 0 ≤ fl (2 * m) / 45)] at e2
  rw [abs_of_nonneg (by linarith : 0 ≤ fl (fl (2 * m) / 45) + 1 / 2)] at e3
  have s0 : 0 ≤ fl (fl (fl (2 * m) / 45) + 1 / 2) := le_fl double_zero (by linarith)
  have s1 : fl (fl (fl (2 * m) / 45) + 1 / 2) ≤ 33 / 2 := fl_le dh (by linarith)
  have hnear : nearest (fl (fl (2 * m) / 45)) = ⌊fl (fl (fl (2 * m) / 45) + 1 / 2)⌋ := by
    rw [nearest, copysign, if_pos i0, pyTrunc, if_pos s0]
  rw [hnear]
  generalize fl (2 * m) = t at *
  generalize fl (t / 45) = i at *
  generalize fl (i + 1 / 2) = s at *
  have hf := Int.floor_le s
  have hf' := Int.lt_floor_add_one s
  have hj0 : 0 ≤ ⌊s⌋ := Int.floor_nonneg.mpr s0
  have hj1 : ⌊s⌋ ≤ 16 := by
    have : (⌊s⌋ : ℚ) < 17 := by linarith
    have : ⌊s⌋ < 17 := by exact_mod_cast this
    omega
  have e42 : (2 : ℚ) ^ (-42 : ℤ) = 2048 * 2 ^ (-53 : ℤ) := by norm_num
  rw [e42]
  have η1 : (2 : ℚ) ^ (-1075 : ℤ) ≤ 2 ^ (-53 : ℤ) := zpow_le_zpow_right₀ (by norm_num) (by norm_num)
  have hb' : |b + 360| ≤ |b| + 360 := le_trans (abs_add_le _ _) (by norm_num)
  have u0 : (0 : ℚ) < 2 ^ (-53 : ℤ) := two_zpow_pos _
  clear e42
  generalize (2 : ℚ) ^ (-53 : ℤ) = u at *
  generalize (2 : ℚ) ^ (-1075 : ℤ) = η at *
  have u1 := mul_le_mul_of_nonneg_right hb' u0.le
  have u2 : 2 * m * u ≤ 720 * u := mul_le_mul_of_nonneg_right (by linarith) u0.le
  have u3 : t / 45 * u ≤ 16 * u := mul_le_mul_of_nonneg_right (by linarith) u0.le
  have u4 : (i + 1 / 2) * u ≤ 33 / 2 * u := mul_le_mul_of_nonneg_right (by linarith) u0.le
  rw [abs_le] at ev e1 e2 e3
  have close : |b - (⌊s⌋ : ℚ) * (45 / 2) - 360 * ((N - 1 : ℤ) : ℚ)| ≤ 45 / 4 + (|b| * u + 2048 * u) := by
    rw [abs_le]
    push_cast
    constructor <;> linarith [ev.1, ev.2, e1.1, e1.2, e2.1, e2.2, e3.1, e3.2]
  generalize ⌊s⌋ = j at *
  have table : ∀ i : Fin 17, ∃ name, pyIndex cardinals (((i : Nat) : Int) % 16) = .ok name ∧
      windBearing name = some ((((i : Nat) % 16 : Nat) : ℚ) * (45 / 2)) := by
    intro i
    fin_cases i <;> exact ⟨_, rfl, by decide +kernel⟩
  obtain ⟨j, rfl⟩ : ∃ k : Nat, j = k := ⟨j.toNat, by omega⟩
  obtain ⟨name, ht1, ht2⟩ := table ⟨j, by omega⟩
  refine ⟨name, _, ht1, ht2, ?_⟩
  by_cases hj : j = 16
  · subst hj
    refine ⟨N, ?_⟩
    push_cast at close
    have e : b - ((16 % 16 : ℕ) : ℚ) * (45 / 2) - 360 * (N : ℚ) = b - 16 * (45 / 2) - 360 * ((N : ℚ) - 1) := by norm_num; ring
    rw [e]
    exact close
  · refine ⟨N - 1, ?_⟩
    simp only [Nat.mod_eq_of_lt (by omega : j < 16)]
    push_cast at close ⊢
    exact close

/-- Which names have a wind. -/
theorem wind_index {name : String} {w : ℚ} (h : windBearing name = some w) : ∃ k : ℤ, 0 ≤ k ∧ k < 16 ∧ w = k * (45 / 2) ∧
    pyIndex cardinals k = .ok name := by
  unfold windBearing at h
  split at h
  case h_1 => exact ⟨0, by norm_num, by norm_num, by simp at h; rw [← h]; norm_num, rfl⟩
  case h_2 => exact ⟨4, by norm_num, by norm_num, by simp at h; rw [← h]; norm_num, rfl⟩
  case h_3 => exact ⟨8, by norm_num, by norm_num, by simp at h; rw [← h]; norm_num, rfl⟩
  case h_4 => exact ⟨12, by norm_num, by norm_num, by simp at h; rw [← h]; norm_num, rfl⟩
  case h_5 => exact ⟨2, by norm_num, by norm_num, by simp at h; rw [← h]; norm_num, rfl⟩
  case h_6 => exact ⟨6, by norm_num, by norm_num, by simp at h; rw [← h]; norm_num, rfl⟩
  case h_7 => exact ⟨10, by norm_num, by norm_num, by simp at h; rw [← h]; norm_num, rfl⟩
  case h_8 => exact ⟨14, by norm_num, by norm_num, by simp at h; rw [← h]; norm_num, rfl⟩
  case h_9 => exact ⟨1, by norm_num, by norm_num, by simp at h; rw [← h]; norm_num, rfl⟩
  case h_10 => exact ⟨3, by norm_num, by norm_num, by simp at h; rw [← h]; norm_num, rfl⟩
  case h_11 => exact ⟨5, by norm_num, by norm_num, by simp at h; rw [← h]; norm_num, rfl⟩
  case h_12 => exact ⟨7, by norm_num, by norm_num, by simp at h; rw [← h]; norm_num, rfl⟩
  case h_13 => exact ⟨9, by norm_num, by norm_num, by simp at h; rw [← h]; norm_num, rfl⟩
  case h_14 => exact ⟨11, by norm_num, by norm_num, by simp at h; rw [← h]; norm_num, rfl⟩
  case h_15 => exact ⟨13, by norm_num, by norm_num, by simp at h; rw [← h]; norm_num, rfl⟩
  case h_16 => exact ⟨15, by norm_num, by norm_num, by simp at h; rw [← h]; norm_num, rfl⟩
  case h_17 => simp at h

/-- **C163**: a float bearing that is not that close to the middle between two winds gets the name of its nearest wind, the one it would get in
exact arithmetic. -/
theorem C163_cardinal_exact (b : ℚ) (hb : IsDouble b)
    (h : ∀ k : ℤ, |b * 2 ^ (-53 : ℤ)| + 2 ^ (-42 : ℤ) < |b - (2 * k + 1) * (45 / 4)|) :
    bearing2cardinal b = Coral.bearing2cardinal b := by
  obtain ⟨name, w, h1, h2, n, h3⟩ := C163_cardinal b hb
  obtain ⟨name', w', h1', h2', n', h3'⟩ := C19_cardinal_nearest_wind b
  obtain ⟨k, k0, k1, hw, hk⟩ := wind_index h2
  obtain ⟨k', k0', k1', hw', hk'⟩ := wind_index h2'
  rw [h1, h1']
  have u0 : (0 : ℚ) < 2 ^ (-53 : ℤ) := two_zpow_pos _
  rw [abs_mul, abs_of_pos u0] at h
  generalize |b| * (2 : ℚ) ^ (-53 : ℤ) + 2 ^ (-42 : ℤ) = ε at *
  have a1 := h (k + 16 * n)
  have a2 := h (k + 16 * n - 1)
  have strict : |b - w - 360 * n| < 45 / 4 := by
    by_contra hc
    push Not at hc
    push_cast at a1 a2
    rcases le_or_gt 0 (b - w - 360 * n) with hs | hs
    · rw [abs_of_nonneg hs] at h3 hc
      rw [abs_of_nonneg (by rw [hw] at hc; linarith)] at a1
      rw [hw] at h3
      linarith
    · rw [abs_of_neg hs] at h3 hc
      rw [abs_of_nonpos (by rw [hw] at hc; linarith)] at a2
      rw [hw] at h3
      linarith
  have e : (((k - k' + 16 * (n - n') : ℤ)) : ℚ) * (45 / 2) = (b - w' - 360 * n') - (b - w - 360 * n) := by
    rw [hw, hw']; push_cast; ring
  rw [abs_lt] at strict
  simp only [Rat.cast_eq_id, id_eq] at h3'
  rw [abs_le] at h3'
  have l1 : (((k - k' + 16 * (n - n') : ℤ)) : ℚ) < 1 := by linarith
  have l2 : (-1 : ℚ) < (((k - k' + 16 * (n - n') : ℤ)) : ℚ) := by linarith
  have l3 : k - k' + 16 * (n - n') < 1 := by exact_mod_cast l1
  have l4 : -1 < k - k' + 16 * (n - n') := by exact_mod_cast l2
  have : k = k' := by omega
  subst this
  rw [hk] at hk'
  exact hk'

/-- **C163**: for whole degrees the names are those of exact arithmetic. -/
theorem C163_whole_degrees (b : ℤ) (h : |b| ≤ 2 ^ 50) : bearing2cardinal b = Coral.bearing2cardinal (b : ℚ) := by
  refine C163_cardinal_exact b (double_int (by omega)) fun k => ?_
  have h1 : |(b : ℚ) * 2 ^ (-53 : ℤ)| ≤ 1 / 8 := by
    rw [abs_mul, abs_of_pos (two_zpow_pos _)]
    have : |(b : ℚ)| ≤ 2 ^ 50 := by exact_mod_cast h
    have := mul_le_mul_of_nonneg_right this (two_zpow_pos (-53)).le
    refine le_trans this ?_
    norm_num
  have h2 : (2 : ℚ) ^ (-42 : ℤ) < 1 / 8 := by norm_num
  have h3 : (1 : ℚ) / 4 ≤ |(b : ℚ) - (2 * k + 1) * (45 / 4)| := by
    have e : (b : ℚ) - (2 * k + 1) * (45 / 4) = ((4 * b - (2 * k + 1) * 45 : ℤ) : ℚ) / 4 := by push_cast; ring
    rw [e, abs_div, abs_of_pos (by norm_num : (0 : ℚ) < 4), div_le_div_iff_of_pos_right (by norm_num)]
    have : (1 : ℤ) ≤ |4 * b - (2 * k + 1) * 45| := Int.one_le_abs (by omega)
    rw [← Int.cast_abs]
    exact_mod_cast this
  generalize (2 : ℚ) ^ (-42 : ℤ) = w at *
  linarith

example : bearing2cardinal (-100) = .ok "E" ∧ bearing2cardinal (1000) = .ok "E" ∧ bearing2hours 90 = 9 ∧
    bearing2hours (-2 ^ (-44 : ℤ)) = 2 ^ (-49 : ℤ) := by decide +kernel

/-- The margin is needed: this bearing is nearer to north, but `b + 360` is rounded to 371.25. -/
example : IsDouble (45 / 4 - 2 ^ (-49 : ℤ)) ∧ bearing2cardinal (45 / 4 - 2 ^ (-49 : ℤ)) = .ok "NNW" ∧
    Coral.bearing2cardinal (45 / 4 - 2 ^ (-49 : ℤ) : ℚ) = .ok "N" := by
  refine ⟨?_, by decide +kernel, by decide +kernel⟩
  have := double_mk (m := 45 * 2 ^ 47 - 1) (e := -49) (by norm_num) (by norm_num)
  have e : (((45 * 2 ^ 47 - 1 : ℤ) : ℚ)) * 2 ^ (-49 : ℤ) = 45 / 4 - 2 ^ (-49 : ℤ) := by norm_num
  rwa [e] at this

/-! ### `corangle` -/

theorem piD_bounds : (3 : ℚ) < piD ∧ piD < 4 := by constructor <;> norm_num [piD]

theorem piD_double : IsDouble piD := by
  have := double_mk (m := 884279719003555) (e := -48) (by norm_num) (by norm_num)
  have e : ((884279719003555 : ℤ) : ℚ) * 2 ^ (-48 : ℤ) = piD := by norm_num [piD]
  rwa [e] at this

theorem twoPi : fl (2 * piD) = 2 * piD := by
  refine fl_id ?_
  have := double_mk (m := 884279719003555) (e := -47) (by norm_num) (by norm_num)
  have e : ((884279719003555 : ℤ) : ℚ) * 2 ^ (-47 : ℤ) = 2 * piD := by norm_num [piD]
  rwa [e] at this

/-- Up to 2⁵⁶ the error is at most 4. -/
theorem angle_error {z : ℚ} (h : |z| ≤ 2 ^ 56) : |fl z - z| ≤ 4 := by
  have h1 := pyRound_abs (z / 8)
  have hb : |z / 8| ≤ ((2 ^ 53 : ℤ) : ℚ) := by
    rw [abs_div, abs_of_pos (by norm_num : (0 : ℚ) < 8), div_le_iff₀ (by norm_num)]
    refine le_trans h (le_of_eq (by norm_num))
  obtain ⟨b1, b2⟩ := abs_le.mp hb
  have r1 := pyRound_le_of_le b2
  have r2 := le_pyRound_of_le (x := z / 8) (n := -2 ^ 53) (by push_cast at b1 ⊢; linarith)
  have hd := double_mk (m := pyRound (z / 8)) (e := 3) (by rw [abs_le]; constructor <;> omega) (by norm_num)
  refine le_trans (fl_nearest z hd) ?_
  have e : (pyRound (z / 8) : ℚ) * 2 ^ (3 : ℤ) - z = (pyRound (z / 8) - z / 8) * 8 := by norm_num; ring
  rw [e, abs_mul, abs_of_pos (by norm_num : (0 : ℚ) < 8)]
  linarith

/-- One loop ends. -/
theorem angle_loop {x : ℚ} (h0 : -2 ^ 56 ≤ x) (h1 : x ≤ piD) :
    ∃ v, While (fun x : ℚ => x < -piD) (fun x => fl (x + fl (2 * piD))) x v ∧ -piD ≤ v ∧ v ≤ piD := by
  rw [twoPi]
  obtain ⟨p3, p4⟩ := piD_bounds
  obtain ⟨k, hk⟩ := exists_nat_ge (-x)
  induction k generalizing x with
  | zero =>
    simp only [Nat.cast_zero] at hk
    exact ⟨x, .done (by push Not; linarith), by linarith, h1⟩
  | succ k ih =>
    by_cases hx : x < -piD
    · have e := angle_error (z := x + 2 * piD) (by
        rw [abs_le]; norm_num at h0 ⊢; constructor <;> linarith)
      have p2 : fl (x + 2 * piD) ≤ piD := fl_le piD_double (by linarith)
      have := (abs_le.mp e).1
      push_cast at hk
      obtain ⟨v, hv, r⟩ := ih (x := fl (x + 2 * piD)) (by linarith) p2 (by linarith)
      exact ⟨v, .step hx hv, r⟩
    · exact ⟨x, .done hx, not_lt.mp hx, h1⟩

/-- Further down adding the step does nothing. -/
theorem angle_stuck {x : ℚ} (hx : IsDouble x) (h : x < -2 ^ 56) : fl (x + fl (2 * piD)) = x := by
  rw [twoPi]
  obtain ⟨p3, p4⟩ := piD_bounds
  have big : ∀ d : ℚ, IsDouble d → d ≤ -2 ^ 56 → ∃ n : ℤ, d = n * 2 ^ 4 := by
    intro d hd hb
    refine double_int_of_large hd (k := 4) ?_
    rw [abs_of_nonpos (by norm_num at hb ⊢; linarith)]
    norm_num at hb ⊢; linarith
  obtain ⟨n, hn⟩ := big x hx h.le
  have hge : x ≤ fl (x + 2 * piD) := le_fl hx (by linarith)
  by_contra hne
  have hgt : x < fl (x + 2 * piD) := lt_of_le_of_ne hge (Ne.symm hne)
  have hnear := fl_nearest (x + 2 * piD) hx
  have hdd := fl_double (x + 2 * piD)
  generalize fl (x + 2 * piD) = d at *
  obtain ⟨G, hG⟩ : ∃ G : ℤ, G = 4503599627370496 := ⟨_, rfl⟩
  have eg : (2 : ℚ) ^ 56 = (G : ℚ) * 16 := by rw [hG]; norm_num
  rw [eg] at h big
  clear hG eg
  have hstep : x + 16 ≤ d := by
    by_cases hb : d ≤ -((G : ℚ) * 16)
    · obtain ⟨m, hm⟩ := big d hdd hb
      rw [hn, hm] at hgt ⊢
      have : (n : ℚ) < m := by linarith
      have : n + 1 ≤ m := by exact_mod_cast this
      have : (n : ℚ) + 1 ≤ m := by exact_mod_cast this
      linarith
    · push Not at hb
      rw [hn] at h
      have : (n : ℚ) < ((-G : ℤ) : ℚ) := by push_cast; linarith
      have : n + 1 ≤ -G := by exact_mod_cast this
      have : (n : ℚ) + 1 ≤ ((-G : ℤ) : ℚ) := by exact_mod_cast this
      push_cast at this
      rw [hn]
      linarith
  have a1 : x - (x + 2 * piD) = -(2 * piD) := by ring
  rw [a1, abs_neg, abs_of_pos (by linarith : 0 < 2 * piD)] at hnear
  have := (abs_le.mp hnear).2
  linarith

theorem angle_hangs {x : ℚ} (hx : IsDouble x) (h : x < -2 ^ 56) :
    ¬ ∃ v, While (fun x : ℚ => x < -piD) (fun x => fl (x + fl (2 * piD))) x v := by
  obtain ⟨p3, p4⟩ := piD_bounds
  refine While.diverges (I := fun y => y = x) ?_ ?_ rfl
  · rintro s rfl
    norm_num at h
    linarith
  · rintro s rfl
    exact angle_stuck hx h

/-- The other loop is the mirror image. -/
theorem angle_mirror {x v : ℚ} : While (fun x : ℚ => piD < x) (fun x => fl (x - fl (2 * piD))) x v ↔
    While (fun x : ℚ => x < -piD) (fun x => fl (x + fl (2 * piD))) (-x) (-v) := by
  constructor
  · intro h
    refine while_map (fun y : ℚ => -y) (fun s => ?_) (fun s => ?_) h
    · constructor <;> intro h <;> linarith
    · rw [← fl_neg]; congr 1; ring
  · intro h
    have := while_map (c' := fun x : ℚ => piD < x) (b' := fun x => fl (x - fl (2 * piD))) (fun y : ℚ => -y) (fun s => ?_) (fun s => ?_) h
    · simpa using this
    · constructor <;> intro h <;> linarith
    · rw [← fl_neg]; congr 1; ring

/-- Up to 64 adding the step is exact. -/
theorem angle_exact {x : ℚ} (hx : IsDouble x) (h0 : -64 ≤ x) (h1 : x < -piD) : fl (x + fl (2 * piD)) = x + 2 * piD := by
  rw [twoPi]
  obtain ⟨p3, p4⟩ := piD_bounds
  refine fl_id ?_
  obtain ⟨m, e, hm, he, hxe⟩ := hx
  have hT : 2 * piD = ((884279719003555 : ℤ) : ℚ) * 2 ^ (-47 : ℤ) := by norm_num [piD]
  have habs : |x + 2 * piD| ≤ |x| := by
    rw [abs_of_neg (by linarith : x < 0), abs_le]
    constructor <;> linarith
  generalize (884279719003555 : ℤ) = T at hT
  by_cases hej : e ≤ -47
  · obtain ⟨k, hk⟩ := zpow_split hej
    have hz : x + 2 * piD = ((m + T * 2 ^ k : ℤ) : ℚ) * 2 ^ e := by
      rw [hT, hk, hxe]; push_cast; ring
    refine ⟨m + T * 2 ^ k, e, ?_, he, hz⟩
    rw [hz, hxe, abs_mul, abs_mul] at habs
    have := le_of_mul_le_mul_right habs (abs_pos.mpr (two_zpow_pos e).ne')
    rw [← Int.cast_abs, ← Int.cast_abs] at this
    have : |m + T * 2 ^ k| ≤ |m| := by exact_mod_cast this
    omega
  · push Not at hej
    obtain ⟨k, hk⟩ := zpow_split hej.le
    have hz : x + 2 * piD = ((m * 2 ^ k + T : ℤ) : ℚ) * 2 ^ (-47 : ℤ) := by
      rw [hT, hxe, hk]; push_cast; ring
    rw [hz]
    refine double_mk ?_ (by norm_num)
    have h64 : |x + 2 * piD| ≤ ((2 ^ 53 : ℤ) : ℚ) * 2 ^ (-47 : ℤ) := by
      refine le_trans habs ?_
      rw [abs_of_neg (by linarith : x < 0)]
      norm_num; linarith
    rw [hz, abs_mul, abs_of_pos (two_zpow_pos _)] at h64
    have := le_of_mul_le_mul_right h64 (two_zpow_pos _)
    rw [← Int.cast_abs] at this
    exact_mod_cast this

theorem angle_turns {x v : ℚ} (hx : IsDouble x) (h0 : -64 ≤ x)
    (h : While (fun x : ℚ => x < -piD) (fun x => fl (x + fl (2 * piD))) x v) : ∃ k : ℕ, v = x + 2 * piD * k := by
  induction h with
  | done hn => exact ⟨0, by simp⟩
  | step hc _ ih =>
    have e := angle_exact hx h0 hc
    obtain ⟨p3, p4⟩ := piD_bounds
    obtain ⟨k, hk⟩ := ih (fl_double _) (by rw [e]; linarith)
    rw [e] at hk
    exact ⟨k + 1, by rw [hk]; push_cast; ring⟩

/-- **C164**: `corangle` of a float ends exactly from -2⁵⁶ to 2⁵⁶, with a value between `-math.pi` and `math.pi`, and leaves the angles of that
range as they are. -/
theorem C164_ends (a : ℚ) (hd : IsDouble a) : ((∃ v, CorangleEnds a v) ↔ |a| ≤ 2 ^ 56) ∧
    (∀ v, CorangleEnds a v → -piD ≤ v ∧ v ≤ piD ∧ (|a| ≤ piD → v = a) ∧ ∀ w, CorangleEnds a w → w = v) := by
  obtain ⟨p3, p4⟩ := piD_bounds
  have det : ∀ {v w}, CorangleEnds a v → CorangleEnds a w → v = w := by
    rintro v w ⟨m, a1, a2⟩ ⟨m', b1, b2⟩
    have := While.det a1 b1
    subst this
    exact While.det a2 b2
  have p56 : (4 : ℚ) ≤ 2 ^ 56 := by norm_num
  have ends : |a| ≤ 2 ^ 56 → ∃ v, CorangleEnds a v ∧ -piD ≤ v ∧ v ≤ piD ∧ (|a| ≤ piD → v = a) := by
    intro h
    obtain ⟨b1, b2⟩ := abs_le.mp h
    rcases le_or_gt a piD with hl | hl
    · obtain ⟨v, hv, r0, r1⟩ := angle_loop b1 hl
      refine ⟨v, ⟨v, hv, .done (by push Not; exact r1)⟩, r0, r1, fun h => ?_⟩
      exact While.det hv (.done (by push Not; exact (abs_le.mp h).1))
    · obtain ⟨v, hv, r0, r1⟩ := angle_loop (x := -a) (by linarith) (by linarith)
      refine ⟨-v, ⟨a, .done (by push Not; linarith), angle_mirror.mpr (by rwa [neg_neg])⟩, by linarith, by linarith, fun h => ?_⟩
      exact absurd (abs_le.mp h).2 (by linarith)
  have range : (∃ v, CorangleEnds a v) → |a| ≤ 2 ^ 56 := by
    rintro ⟨v, mid, hm, hv⟩
    rw [abs_le]
    constructor
    · by_contra hc
      push Not at hc
      exact angle_hangs hd hc ⟨mid, hm⟩
    · by_contra hc
      push Not at hc
      have : mid = a := (While.det (.done (by push Not; linarith)) hm).symm
      subst this
      exact angle_hangs (double_neg hd) (by linarith) ⟨-v, angle_mirror.mp hv⟩
  refine ⟨⟨range, fun h => (ends h).imp fun _ h => h.1⟩, fun v hv => ?_⟩
  obtain ⟨w, hw, r0, r1, r2⟩ := ends (range ⟨v, hv⟩)
  rw [det hv hw]
  exact ⟨r0, r1, r2, fun w' hw' => det hw' hw⟩

/-- **C164**: up to 64 (ten turns) nothing is rounded: the result differs from `a` by a multiple of `2 * math.pi`, and by at most 10⁻¹⁵ for each
turn from the angle that is the same direction. -/
theorem C164_turns (a v : ℚ) (hd : IsDouble a) (h : |a| ≤ 64) (hv : CorangleEnds a v) :
    ∃ k : ℤ, v = a + 2 * piD * k ∧ |k| ≤ 11 ∧ |(v : ℝ) - (a + 2 * Real.pi * k)| ≤ |(k : ℝ)| / 10 ^ 15 := by
  obtain ⟨p3, p4⟩ := piD_bounds
  obtain ⟨b1, b2⟩ := abs_le.mp h
  have key : ∃ k : ℤ, v = a + 2 * piD * k := by
    obtain ⟨mid, hm, hv'⟩ := hv
    rcases le_or_gt a piD with hl | hl
    · obtain ⟨w, hw, r0, r1⟩ := angle_loop (x := a) (by norm_num; linarith) hl
      have := While.det hm hw
      subst this
      have := While.det (.done (by push Not; exact r1)) hv'
      subst this
      obtain ⟨k, hk⟩ := angle_turns hd b1 hm
      exact ⟨k, by exact_mod_cast hk⟩
    · have : mid = a := (While.det (.done (by push Not; linarith)) hm).symm
      subst this
      obtain ⟨k, hk⟩ := angle_turns (double_neg hd) (by linarith) (angle_mirror.mp hv')
      exact ⟨-k, by push_cast; linarith⟩
  obtain ⟨k, hk⟩ := key
  obtain ⟨r0, r1, -⟩ := (C164_ends a hd).2 v hv
  refine ⟨k, hk, ?_, ?_⟩
  · have h1 : ((k : ℤ) : ℚ) < 12 := by
      by_contra hc
      push Not at hc
      have : 2 * piD * 12 ≤ 2 * piD * k := mul_le_mul_of_nonneg_left hc (by linarith)
      linarith
    have h2 : (-12 : ℚ) < ((k : ℤ) : ℚ) := by
      by_contra hc
      push Not at hc
      have : 2 * piD * k ≤ 2 * piD * (-12) := mul_le_mul_of_nonneg_left hc (by linarith)
      linarith
    have h3 : k < 12 := by exact_mod_cast h1
    have h4 : -12 < k := by exact_mod_cast h2
    rw [abs_le]
    omega
  · have e : (v : ℝ) - (a + 2 * Real.pi * k) = k * (2 * ((piD : ℚ) - Real.pi)) := by
      rw [hk]; push_cast; ring
    rw [e, abs_mul, div_eq_mul_inv]
    refine mul_le_mul_of_nonneg_left ?_ (abs_nonneg _)
    have q1 := Real.pi_gt_d20
    have q2 := Real.pi_lt_d20
    have q3 : ((piD : ℚ) : ℝ) = 884279719003555 / 281474976710656 := by norm_num [piD]
    rw [q3, abs_le]
    constructor <;> norm_num <;> linarith

example : CorangleEnds 7 (7 - 2 * piD) ∧ IsDouble 7 ∧ |(7 : ℚ)| ≤ 64 ∧ ¬ |(2 ^ 60 : ℚ)| ≤ 2 ^ 56 := by
  have hd : IsDouble 7 := by simpa using double_int (n := 7) (by norm_num)
  refine ⟨⟨7, .done (by norm_num [piD]), .step (by norm_num [piD]) ?_⟩, hd, by norm_num, by norm_num⟩
  have : fl (7 - fl (2 * piD)) = 7 - 2 * piD := by decide +kernel
  rw [this]
  exact .done (by norm_num [piD])

end Flt
end Coral
