import Verif.Props.FloatsC
import Verif.Proofs.PF

/-!
# Properties C159 and C160: coordinates of P files and wrapping, on floats
-/
namespace Coral
namespace Flt

/-! ### C159 -/

/-- The half ranges in use: 180 for longitudes, 90 for latitudes. -/
theorem half_facts {h : ℚ} (hh : h = 180 ∨ h = 90) :
    90 ≤ h ∧ h ≤ 180 ∧ IsDouble h ∧ IsDouble (2 * h) ∧ IsDouble (2 * h * 65535) := by
  have d : ∀ n : ℤ, |n| ≤ 2 ^ 53 → IsDouble (n : ℚ) := fun n hn => double_int hn
  rcases hh with rfl | rfl
  · refine ⟨by norm_num, by norm_num, ?_, ?_, ?_⟩
    · simpa using d 180 (by norm_num)
    · have := d 360 (by norm_num); norm_num at this ⊢; exact this
    · have := d (360 * 65535) (by norm_num); norm_num at this ⊢; exact this
  · refine ⟨by norm_num, by norm_num, ?_, ?_, ?_⟩
    · simpa using d 90 (by norm_num)
    · have := d 180 (by norm_num); norm_num at this ⊢; exact this
    · have := d (180 * 65535) (by norm_num); norm_num at this ⊢; exact this

/-- The position of a coordinate among the 65535 steps, as computed. -/
def position (h v : ℚ) : ℚ := fl (fl (fl (v + h) * 65535) / (2 * h))

theorem position_range {h v : ℚ} (hh : h = 180 ∨ h = 90) (h0 : -h ≤ v) (h1 : v ≤ h) : 0 ≤ position h v ∧ position h v ≤ 65535 := by
  obtain ⟨a, b, d1, d2, d3⟩ := half_facts hh
  have p0 : 0 ≤ fl (v + h) := le_fl double_zero (by linarith)
  have p1 : fl (v + h) ≤ 2 * h := fl_le d2 (by linarith)
  have q0 : 0 ≤ fl (fl (v + h) * 65535) := le_fl double_zero (by positivity)
  have q1 : fl (fl (v + h) * 65535) ≤ 2 * h * 65535 := fl_le d3 (by linarith)
  refine ⟨le_fl double_zero (by positivity), fl_le (by simpa using double_int (n := 65535) (by norm_num)) ?_⟩
  rw [div_le_iff₀ (by linarith)]
  linarith

theorem position_close {h v u η : ℚ} (hh : h = 180 ∨ h = 90) (hv : IsDouble v) (h0 : -h ≤ v) (h1 : v ≤ h) (hu : u = 2 ^ (-53 : ℤ))
    (hη : η = 2 ^ (-1075 : ℤ)) : |position h v - (v + h) * 65535 / (2 * h)| ≤ 7 * u * 65535 + η := by
  obtain ⟨a, b, d1, d2, d3⟩ := half_facts hh
  have u0 : 0 < u := by rw [hu]; exact two_zpow_pos _
  obtain ⟨δ, hδ, e1⟩ := grid_factor hu (grid_add (grid_of_double hv) (grid_of_double d1))
  obtain ⟨ε, hε, e2⟩ := grid_factor hu (z := fl (v + h) * 65535) (by
    have := grid_mul (grid_of_double (fl_double (v + h))) 65535
    exact_mod_cast this)
  have k := scaled_close (A := v + h) (S := 65535) (D := 2 * h) (a := δ) (b := 0) (c := ε) (d := 0) (w := position h v) hu hη hδ
    (by simpa using u0.le) hε (by simpa using u0.le) (by linarith) (by rw [position, e2, e1]; simp)
  refine le_trans k ?_
  have t0 : 0 ≤ (v + h) * 65535 / (2 * h) := div_nonneg (by linarith) (by linarith)
  have t1 : (v + h) * 65535 / (2 * h) ≤ 65535 := by rw [div_le_iff₀ (by linarith)]; linarith
  rw [abs_of_nonneg t0]
  have := mul_le_mul_of_nonneg_left t1 (by linarith : 0 ≤ 7 * u)
  linarith

theorem dequant_close {h u η : ℚ} (hh : h = 180 ∨ h = 90) {n : ℤ} (h0 : 0 ≤ n) (h1 : n ≤ 65535) (hu : u = 2 ^ (-53 : ℤ))
    (hη : η = 2 ^ (-1075 : ℤ)) : |dequant h n - (n * (2 * h) / 65535 - h)| ≤ 3 * u * h + η ∧ |dequant h n| ≤ h := by
  obtain ⟨a, b, d1, d2, d3⟩ := half_facts hh
  have u0 : 0 < u := by rw [hu]; exact two_zpow_pos _
  have n0 : (0 : ℚ) ≤ n := by exact_mod_cast h0
  have n1 : (n : ℚ) ≤ 65535 := by exact_mod_cast h1
  have t0 : 0 ≤ (n : ℚ) * (2 * h) / 65535 := by positivity
  have t1 : (n : ℚ) * (2 * h) / 65535 ≤ 2 * h := by
    rw [div_le_iff₀ (by norm_num)]
    have := mul_le_mul_of_nonneg_right n1 (by linarith : 0 ≤ 2 * h)
    linarith
  have k1 := fl_close (x := (n : ℚ) * (2 * h) / 65535) hu hη
  rw [abs_of_nonneg t0] at k1
  have r0 := le_fl double_zero t0
  have r1 := fl_le d2 t1
  have k2 := grid_error (grid_sub (grid_of_double (fl_double ((n : ℚ) * (2 * h) / 65535))) (grid_of_double d1))
  rw [← hu] at k2
  have e : dequant h n = fl (fl ((n : ℚ) * (2 * h) / 65535) - h) := rfl
  constructor
  · rw [e]
    generalize (n : ℚ) * (2 * h) / 65535 = t at *
    generalize fl t = r at *
    have k3 : |r - h| * u ≤ h * u := mul_le_mul_of_nonneg_right (by rw [abs_le]; constructor <;> linarith) u0.le
    have k4 : t * u ≤ 2 * h * u := mul_le_mul_of_nonneg_right t1 u0.le
    have := abs_sub_le (fl (r - h)) (r - h) (t - h)
    have e2 : r - h - (t - h) = r - t := by ring
    rw [e2] at this
    linarith
  · rw [e, abs_le]
    exact ⟨le_fl (double_neg d1) (by linarith), fl_le d1 (by linarith)⟩

/-- C159: the bounds stored for a box whose sides are `lo` and `hi`: two 16-bit integers, which stand for floats no more than one step
outside the box, and not inside it but for rounding. -/
theorem C159_bounds (h : ℚ) (hh : h = 180 ∨ h = 90) (lo hi : ℚ) (hlo : IsDouble lo) (hhi : IsDouble hi) (h0 : -h ≤ lo) (h1 : lo ≤ hi)
    (h2 : hi ≤ h) :
    0 ≤ quantLow h lo ∧ quantLow h lo ≤ quantHigh h hi ∧ quantHigh h hi ≤ 65535 ∧
      lo - 2 * h / 65535 - 5 * 2 ^ (-51 : ℤ) * h ≤ dequant h (quantLow h lo) ∧ dequant h (quantLow h lo) ≤ lo + 5 * 2 ^ (-51 : ℤ) * h ∧
      hi - 5 * 2 ^ (-51 : ℤ) * h ≤ dequant h (quantHigh h hi) ∧ dequant h (quantHigh h hi) ≤ hi + 2 * h / 65535 + 5 * 2 ^ (-51 : ℤ) * h ∧
      (quantLow h lo = quantHigh h hi → hi - lo ≤ 2 ^ (-48 : ℤ) * h) := by
  obtain ⟨a, b, d1, d2, d3⟩ := half_facts hh
  obtain ⟨l0, l1⟩ := position_range hh h0 (by linarith : lo ≤ h)
  obtain ⟨g0, g1⟩ := position_range hh (by linarith : -h ≤ hi) h2
  have hmono : position h lo ≤ position h hi :=
    fl_mono (div_le_div_of_nonneg_right (fl_mono (mul_le_mul_of_nonneg_right (fl_mono (by linarith)) (by norm_num))) (by linarith))
  have eL : quantLow h lo = ⌊position h lo⌋ := rfl
  have eH : quantHigh h hi = ⌈position h hi⌉ := rfl
  have nL0 : 0 ≤ quantLow h lo := by rw [eL]; exact Int.floor_nonneg.mpr l0
  have nLH : quantLow h lo ≤ quantHigh h hi := by
    rw [eL, eH]
    have f1 := Int.floor_le (position h lo)
    have f2 := Int.le_ceil (position h hi)
    exact_mod_cast le_trans f1 (le_trans hmono f2)
  have nH1 : quantHigh h hi ≤ 65535 := by rw [eH]; exact Int.ceil_le.mpr (by exact_mod_cast g1)
  refine ⟨nL0, nLH, nH1, ?_⟩
  have f1 := Int.floor_le (position h lo)
  have f2 := Int.lt_floor_add_one (position h lo)
  have f3 := Int.le_ceil (position h hi)
  have f4 := Int.ceil_lt_add_one (position h hi)
  rw [← eL] at f1 f2
  rw [← eH] at f3 f4
  have e48 : (2 : ℚ) ^ (-48 : ℤ) = 32 * 2 ^ (-53 : ℤ) := by norm_num
  have e51 : 5 * (2 : ℚ) ^ (-51 : ℤ) = 20 * 2 ^ (-53 : ℤ) := by norm_num
  rw [e48, e51]
  obtain ⟨u, hu⟩ : ∃ u : ℚ, u = 2 ^ (-53 : ℤ) := ⟨_, rfl⟩
  obtain ⟨η, hη⟩ : ∃ η : ℚ, η = 2 ^ (-1075 : ℤ) := ⟨_, rfl⟩
  rw [← hu]
  have u0 : 0 < u := by rw [hu]; exact two_zpow_pos _
  have η1 : η ≤ u := by rw [hu, hη]; exact zpow_le_zpow_right₀ (by norm_num) (by norm_num)
  have kL := position_close hh hlo h0 (by linarith) hu hη
  have kH := position_close hh hhi (by linarith) h2 hu hη
  have cL := (dequant_close hh nL0 (le_trans nLH nH1) hu hη).1
  have cH := (dequant_close hh (le_trans nL0 nLH) nH1 hu hη).1
  clear hu hη e48 e51 eL eH
  generalize quantLow h lo = n0 at *
  generalize quantHigh h hi = n1 at *
  generalize position h lo = pl at *
  generalize position h hi = ph at *
  generalize dequant h n0 = X0 at *
  generalize dequant h n1 = X1 at *
  have uh : u * 90 ≤ u * h := mul_le_mul_of_nonneg_left a u0.le
  -- from steps to degrees
  have hs : 0 < 2 * h / 65535 := by positivity
  have c1 : (lo + h) * 65535 / (2 * h) * (2 * h / 65535) = lo + h := by field_simp
  have c2 : (hi + h) * 65535 / (2 * h) * (2 * h / 65535) = hi + h := by field_simp
  have c3 : (n0 : ℚ) * (2 * h) / 65535 = n0 * (2 * h / 65535) := by ring
  have c4 : (n1 : ℚ) * (2 * h) / 65535 = n1 * (2 * h / 65535) := by ring
  have c5 : 65535 * (2 * h / 65535) = 2 * h := by ring
  have c6 : 2 * h / 65535 ≤ 1 := by rw [div_le_iff₀ (by norm_num)]; linarith
  rw [c3] at cL
  rw [c4] at cH
  generalize (lo + h) * 65535 / (2 * h) = ql at *
  generalize (hi + h) * 65535 / (2 * h) = qh at *
  generalize 2 * h / 65535 = s at *
  obtain ⟨kL1, kL2⟩ := abs_le.mp kL
  obtain ⟨kH1, kH2⟩ := abs_le.mp kH
  obtain ⟨cL1, cL2⟩ := abs_le.mp cL
  obtain ⟨cH1, cH2⟩ := abs_le.mp cH
  have E : (7 * u * 65535 + η) * s ≤ 15 * (u * h) := by
    have t1 : η * s ≤ u * 1 := mul_le_mul η1 c6 hs.le u0.le
    have t2 : 7 * u * 65535 * s = 14 * (u * h) := by
      rw [show 7 * u * 65535 * s = 7 * u * (65535 * s) by ring, c5]; ring
    linarith
  have a1 : (n0 : ℚ) * s ≤ (lo + h) + 15 * (u * h) := by
    have := mul_le_mul_of_nonneg_right (by linarith : (n0 : ℚ) ≤ ql + (7 * u * 65535 + η)) hs.le
    linarith
  have a2 : (lo + h) - 15 * (u * h) ≤ (n0 : ℚ) * s + s := by
    have := mul_le_mul_of_nonneg_right (by linarith : ql - (7 * u * 65535 + η) ≤ (n0 : ℚ) + 1) hs.le
    linarith
  have a3 : (hi + h) - 15 * (u * h) ≤ (n1 : ℚ) * s := by
    have := mul_le_mul_of_nonneg_right (by linarith : qh - (7 * u * 65535 + η) ≤ (n1 : ℚ)) hs.le
    linarith
  have a4 : (n1 : ℚ) * s ≤ (hi + h) + 15 * (u * h) + s := by
    have := mul_le_mul_of_nonneg_right (by linarith : (n1 : ℚ) ≤ qh + (7 * u * 65535 + η) + 1) hs.le
    linarith
  refine ⟨by linarith, by linarith, by linarith, by linarith, ?_⟩
  intro hn
  rw [hn] at a1
  linarith

/-- C159: with 1, 2 or 4 bytes, every coordinate of the box fits, and comes back half a quantum away at most, up to rounding. -/
theorem C159_coordinate_partial (h : ℚ) (hh : h = 180 ∨ h = 90) (lo hi v : ℚ) (hlo : IsDouble lo) (hhi : IsDouble hi) (hv : IsDouble v)
    (h0 : -h ≤ lo) (h1 : lo ≤ v) (h2 : v ≤ hi) (h3 : hi ≤ h) (hne : quantLow h lo ≠ quantHigh h hi) (size : Nat) (hsize : size ∈ [1, 2, 4]) :
    ∃ i : ℤ, store (256 ^ size - 1) (dequant h (quantLow h lo)) (dequant h (quantHigh h hi)) v = .ok i ∧ 0 ≤ i ∧ i ≤ 256 ^ size - 1 ∧
      |restore (256 ^ size - 1) (dequant h (quantLow h lo)) (dequant h (quantHigh h hi)) i - v| ≤
        (dequant h (quantHigh h hi) - dequant h (quantLow h lo)) / (2 * (256 ^ size - 1)) + 2 ^ (-47 : ℤ) * h := by
  obtain ⟨a, b, d1, d2, d3⟩ := half_facts hh
  obtain ⟨b0, b1, b2, b3, b4, b5, b6, -⟩ := C159_bounds h hh lo hi hlo hhi h0 (le_trans h1 h2) h3
  have e51 : 5 * (2 : ℚ) ^ (-51 : ℤ) = 20 * 2 ^ (-53 : ℤ) := by norm_num
  have e47 : (2 : ℚ) ^ (-47 : ℤ) = 64 * 2 ^ (-53 : ℤ) := by norm_num
  rw [e51] at b3 b4 b5 b6
  rw [e47]
  obtain ⟨u, hu⟩ : ∃ u : ℚ, u = 2 ^ (-53 : ℤ) := ⟨_, rfl⟩
  obtain ⟨η, hη⟩ : ∃ η : ℚ, η = 2 ^ (-1075 : ℤ) := ⟨_, rfl⟩
  rw [← hu] at b3 b4 b5 b6 ⊢
  have u0 : 0 < u := by rw [hu]; exact two_zpow_pos _
  have u53 : u * 9007199254740992 = 1 := by rw [hu]; norm_num
  have η0 : 0 < η := by rw [hη]; exact two_zpow_pos _
  have η1 : η ≤ u := by rw [hu, hη]; exact zpow_le_zpow_right₀ (by norm_num) (by norm_num)
  obtain ⟨cL, rL⟩ := dequant_close hh b0 (le_trans b1 b2) hu hη
  obtain ⟨cH, rH⟩ := dequant_close hh (le_trans b0 b1) b2 hu hη
  have dX0 : IsDouble (dequant h (quantLow h lo)) := fl_double _
  have dX1 : IsDouble (dequant h (quantHigh h hi)) := fl_double _
  have hn : (quantLow h lo : ℚ) + 1 ≤ quantHigh h hi := by
    have : quantLow h lo + 1 ≤ quantHigh h hi := by omega
    exact_mod_cast this
  generalize (quantLow h lo) = n0 at *
  generalize (quantHigh h hi) = n1 at *
  generalize dequant h n0 = X0 at *
  generalize dequant h n1 = X1 at *
  have uh : u * 90 ≤ u * h := mul_le_mul_of_nonneg_left a u0.le
  have hS : (255 : ℤ) ≤ 256 ^ size - 1 ∧ (256 : ℤ) ^ size - 1 ≤ 4294967295 := by
    simp only [List.mem_cons, List.not_mem_nil, or_false] at hsize
    rcases hsize with rfl | rfl | rfl <;> norm_num
  have hSq : ((256 : ℚ) ^ size - 1) = (((256 : ℤ) ^ size - 1 : ℤ) : ℚ) := by push_cast; ring
  rw [hSq]
  generalize ((256 : ℤ) ^ size - 1) = S at *
  have S1 : (255 : ℚ) ≤ S := by exact_mod_cast hS.1
  have S2 : (S : ℚ) ≤ 4294967295 := by exact_mod_cast hS.2
  obtain ⟨cL1, cL2⟩ := abs_le.mp cL
  obtain ⟨cH1, cH2⟩ := abs_le.mp cH
  -- the width of the stored box
  have hW : h / 32768 ≤ X1 - X0 := by
    have s0 : 0 < 2 * h / 65535 := by positivity
    have s1 : (n0 : ℚ) * (2 * h) / 65535 + 2 * h / 65535 ≤ n1 * (2 * h) / 65535 := by
      rw [← add_div]
      refine div_le_div_of_nonneg_right ?_ (by norm_num)
      have := mul_le_mul_of_nonneg_right hn (by linarith : 0 ≤ 2 * h)
      linarith
    have s2 : u * h * 9007199254740992 = h := by
      rw [show u * h * 9007199254740992 = h * (u * 9007199254740992) by ring, u53, mul_one]
    have s3 : 2 * h / 65535 = h * (2 / 65535) := by ring
    have s4 : h / 32768 = h * (1 / 32768) := by ring
    rw [s3] at s1
    rw [s4]
    linarith
  have hlt : X0 < X1 := by
    have : 0 < h / 32768 := by positivity
    linarith
  have hne' : fl (X1 - X0) ≠ 0 := by
    intro hz
    rw [C154_sides_do_not_vanish X0 X1 dX0 dX1] at hz
    exact absurd hz hlt.ne
  have k := index_close dX0 dX1 hv hlt S hu hη
  refine ⟨pyRound (fl (fl (fl (v - X0) * fl S) / fl (X1 - X0))), by rw [store, if_neg hne'], ?_⟩
  have hpa := pyRound_abs (fl (fl (fl (v - X0) * fl (S : ℚ)) / fl (X1 - X0)))
  generalize fl (fl (fl (v - X0) * fl (S : ℚ)) / fl (X1 - X0)) = t at *
  have hWp : 0 < X1 - X0 := by linarith
  have hSp : (0 : ℚ) < S := by linarith
  -- one degree of rounding is less than a hundredth of a unit
  have hR : u * h * (S / (X1 - X0)) ≤ 1 / 64 := by
    rw [← mul_div_assoc, div_le_iff₀ hWp]
    have t1 : u * h * S ≤ u * h * 4294967296 := mul_le_mul_of_nonneg_left (by linarith) (by positivity)
    have t2 : u * h * 4294967296 = h / 32768 * (1 / 64) := by
      rw [show u * h * 4294967296 = (u * 9007199254740992) * h / 2097152 by ring, u53]; ring
    linarith
  have hTlo : -(20 / 64) ≤ (v - X0) * S / (X1 - X0) := by
    have e : (v - X0) * S / (X1 - X0) = (v - X0) * (S / (X1 - X0)) := by ring
    rw [e]
    have : -(20 * (u * h)) * (S / (X1 - X0)) ≤ (v - X0) * (S / (X1 - X0)) :=
      mul_le_mul_of_nonneg_right (by linarith) (by positivity)
    linarith
  have hThi : (v - X0) * S / (X1 - X0) ≤ S + 20 / 64 := by
    have e : (v - X0) * S / (X1 - X0) = (v - X0) * (S / (X1 - X0)) := by ring
    rw [e]
    have e2 : (X1 - X0) * (S / (X1 - X0)) = S := by field_simp
    have : (v - X0) * (S / (X1 - X0)) ≤ ((X1 - X0) + 20 * (u * h)) * (S / (X1 - X0)) :=
      mul_le_mul_of_nonneg_right (by linarith) (by positivity)
    linarith
  have hTv : X0 + (v - X0) * S / (X1 - X0) * ((X1 - X0) / S) = v := by
    field_simp
    ring
  have hQ : 0 < (X1 - X0) / S := by positivity
  have hQS : (X1 - X0) / S * S = X1 - X0 := by field_simp
  have hq : (X1 - X0) / (2 * S) = 1 / 2 * ((X1 - X0) / S) := by field_simp
  have hTabs : |(v - X0) * S / (X1 - X0)| ≤ S + 1 := by rw [abs_le]; constructor <;> linarith
  generalize (v - X0) * S / (X1 - X0) = T at *
  have k2 : |t - T| ≤ 8 * u * S := by
    have t1 : 7 * u * |T| ≤ 7 * u * (S + 1) := mul_le_mul_of_nonneg_left hTabs (by linarith)
    have t2 : u * 255 ≤ u * S := mul_le_mul_of_nonneg_left S1 u0.le
    linarith
  have k3 : 8 * u * S ≤ 1 / 100 := by
    have : u * S ≤ u * 4294967296 := mul_le_mul_of_nonneg_left (by linarith) u0.le
    linarith
  obtain ⟨k4, k5⟩ := abs_le.mp k2
  obtain ⟨p1, p2⟩ := abs_le.mp hpa
  have i0 : 0 ≤ pyRound t := by
    have : (-1 : ℚ) < (pyRound t : ℤ) := by linarith
    have : (-1 : ℤ) < pyRound t := by exact_mod_cast this
    omega
  have i1 : pyRound t ≤ S := by
    have : ((pyRound t : ℤ) : ℚ) < (S + 1 : ℤ) := by push_cast; linarith
    have : pyRound t < S + 1 := by exact_mod_cast this
    omega
  refine ⟨i0, i1, ?_⟩
  have g := decoded_close dX0 dX1 hlt S (pyRound t) (by omega) i0 i1 hu hη
  have hM : max |X0| |X1| ≤ h := max_le rL rH
  rw [restore]
  generalize fl (X0 + fl (fl (fl ((pyRound t : ℤ) : ℚ) * fl (X1 - X0)) / fl (S : ℚ))) = y at *
  have g1 : 18 * u * max |X0| |X1| ≤ 18 * u * h := mul_le_mul_of_nonneg_left hM (by linarith)
  rw [hq]
  have hyi : X0 + ((pyRound t : ℤ) : ℚ) * (X1 - X0) / S = X0 + ((pyRound t : ℤ) : ℚ) * ((X1 - X0) / S) := by ring
  rw [hyi] at g
  obtain ⟨w1, w2⟩ := abs_le.mp rL
  obtain ⟨w3, w4⟩ := abs_le.mp rH
  generalize (X1 - X0) / S = Q at *
  have h2 : |(X0 + ((pyRound t : ℤ) : ℚ) * Q) - v| ≤ 1 / 2 * Q + 8 * u * (X1 - X0) := by
    have e : (X0 + ((pyRound t : ℤ) : ℚ) * Q) - v = (((pyRound t : ℤ) : ℚ) - T) * Q := by
      conv_lhs => rw [← hTv]
      ring
    have i2 : |((pyRound t : ℤ) : ℚ) - T| ≤ 1 / 2 + 8 * u * S := by
      have := abs_sub_le ((pyRound t : ℤ) : ℚ) t T
      linarith
    rw [e, abs_mul, abs_of_pos hQ, ← hQS]
    have := mul_le_mul_of_nonneg_right i2 hQ.le
    linarith
  have h5 := abs_sub_le y (X0 + ((pyRound t : ℤ) : ℚ) * Q) v
  have h6 : 8 * u * (X1 - X0) ≤ 8 * u * (2 * h) := mul_le_mul_of_nonneg_left (by linarith) (by linarith)
  linarith

/-- C159: the points of an entity, with 1, 2 or 4 bytes: all are packed, and each is read back half a quantum away at most, up to
rounding. -/
theorem C159_points_partial (bb : BBox ℚ) (hd : Doubles bb) (hx0 : -180 ≤ bb.x0) (hx1 : bb.x1 ≤ 180) (hy0 : -90 ≤ bb.y0) (hy1 : bb.y1 ≤ 90)
    (hnx : quantLow 180 bb.x0 ≠ quantHigh 180 bb.x1) (hny : quantLow 90 bb.y0 ≠ quantHigh 90 bb.y1) (points : List (ℚ × ℚ))
    (hp : ∀ p ∈ points, IsDouble p.1 ∧ IsDouble p.2 ∧ bb.x0 ≤ p.1 ∧ p.1 ≤ bb.x1 ∧ bb.y0 ≤ p.2 ∧ p.2 ≤ bb.y1) (size : Nat)
    (hsize : size ∈ [1, 2, 4]) :
    ∃ bss : List (List Byte), packAll size bb points = .ok bss.flatten ∧ List.Forall₂ (fun p bs => bs.length = size * 2 ∧
      ∃ q : ℚ × ℚ, readPoint size (256 ^ size - 1) (dequant 180 (quantLow 180 bb.x0)) (dequant 180 (quantHigh 180 bb.x1))
        (dequant 90 (quantLow 90 bb.y0)) (dequant 90 (quantHigh 90 bb.y1)) bs = .ok q ∧
      |q.1 - p.1| ≤ (dequant 180 (quantHigh 180 bb.x1) - dequant 180 (quantLow 180 bb.x0)) / (2 * (256 ^ size - 1)) + 2 ^ (-47 : ℤ) * 180 ∧
      |q.2 - p.2| ≤ (dequant 90 (quantHigh 90 bb.y1) - dequant 90 (quantLow 90 bb.y0)) / (2 * (256 ^ size - 1)) + 2 ^ (-47 : ℤ) * 90)
      points bss := by
  have hs8 : size ∈ [1, 2, 4, 8] := by simp only [List.mem_cons, List.not_mem_nil, or_false] at hsize ⊢; tauto
  obtain ⟨hd0, hd1, hd2, hd3⟩ := hd
  suffices hk : ∃ bss : List (List Byte), points.mapM (fun p => do
      let ulon ← store (256 ^ size - 1) (dequant 180 (quantLow 180 bb.x0)) (dequant 180 (quantHigh 180 bb.x1)) p.1
      let ulat ← store (256 ^ size - 1) (dequant 90 (quantLow 90 bb.y0)) (dequant 90 (quantHigh 90 bb.y1)) p.2
      let a ← packU size ulon
      let b ← packU size ulat
      return a ++ b) = .ok bss ∧ List.Forall₂ (fun p bs => bs.length = size * 2 ∧
      ∃ q : ℚ × ℚ, readPoint size (256 ^ size - 1) (dequant 180 (quantLow 180 bb.x0)) (dequant 180 (quantHigh 180 bb.x1))
        (dequant 90 (quantLow 90 bb.y0)) (dequant 90 (quantHigh 90 bb.y1)) bs = .ok q ∧
      |q.1 - p.1| ≤ (dequant 180 (quantHigh 180 bb.x1) - dequant 180 (quantLow 180 bb.x0)) / (2 * (256 ^ size - 1)) + 2 ^ (-47 : ℤ) * 180 ∧
      |q.2 - p.2| ≤ (dequant 90 (quantHigh 90 bb.y1) - dequant 90 (quantLow 90 bb.y0)) / (2 * (256 ^ size - 1)) + 2 ^ (-47 : ℤ) * 90)
      points bss by
    obtain ⟨bss, h1, h2⟩ := hk
    refine ⟨bss, ?_, h2⟩
    simp only [packAll, getfmt, if_pos hs8, bind, Except.bind] at h1 ⊢
    rw [h1]
    rfl
  induction points with
  | nil => exact ⟨[], rfl, .nil⟩
  | cons p ps ih =>
    obtain ⟨bss, h1, h2⟩ := ih (fun q hq => hp q (by simp [hq]))
    obtain ⟨e1, e2, e3, e4, e5, e6⟩ := hp p (by simp)
    obtain ⟨i, i1, i2, i3, i4⟩ := C159_coordinate_partial 180 (Or.inl rfl) bb.x0 bb.x1 p.1 (by assumption) (by assumption) e1 hx0 e3 e4 hx1 hnx size hsize
    obtain ⟨j, j1, j2, j3, j4⟩ := C159_coordinate_partial 90 (Or.inr rfl) bb.y0 bb.y1 p.2 (by assumption) (by assumption) e2 hy0 e5 e6 hy1 hny size hsize
    have pi : packU size i = .ok (beBytes size i.toNat) := packU_ok.mpr ⟨i2, by push_cast; omega, rfl⟩
    have pj : packU size j = .ok (beBytes size j.toNat) := packU_ok.mpr ⟨j2, by push_cast; omega, rfl⟩
    refine ⟨(beBytes size i.toNat ++ beBytes size j.toNat) :: bss, ?_, .cons ⟨?_, ?_⟩ h2⟩
    · rw [List.mapM_cons, i1, j1]
      simp only [bind, Except.bind, pi, pj] at h1 ⊢
      rw [h1]
      rfl
    · rw [List.length_append, beBytes_length, beBytes_length]; ring
    · have hlt : ∀ k : ℤ, 0 ≤ k → k ≤ 256 ^ size - 1 → ((k.toNat % 256 ^ size : ℕ) : ℤ) = k := by
        intro k k0 k1
        rw [Nat.mod_eq_of_lt (by zify; rw [Int.toNat_of_nonneg k0]; omega), Int.toNat_of_nonneg k0]
      refine ⟨(restore (256 ^ size - 1) (dequant 180 (quantLow 180 bb.x0)) (dequant 180 (quantHigh 180 bb.x1)) i,
        restore (256 ^ size - 1) (dequant 90 (quantLow 90 bb.y0)) (dequant 90 (quantHigh 90 bb.y1)) j), ?_, i4, j4⟩
      have hl : (beBytes size i.toNat ++ beBytes size j.toNat).length = size * 2 := by
        rw [List.length_append, beBytes_length, beBytes_length]; ring
      simp only [readPoint, unpackPair, if_pos hl, bind, Except.bind]
      rw [List.take_left' (beBytes_length _ _), List.drop_left' (beBytes_length _ _), beVal_beBytes, beVal_beBytes, hlt i i2 i3, hlt j j2 j3]
      rfl

/-- C159: with 8 bytes the easternmost point of an entity that reaches the longitude 180 does not fit: 2⁶⁴-1 is rounded to 2⁶⁴. -/
theorem C159_eight_bytes_violated :
    BBox.ofPoints [((0 : ℚ), (0 : ℚ)), (180, 10)] = .ok ⟨0, 0, 180, 10⟩ ∧ quantLow 180 0 ≠ quantHigh 180 180 ∧ quantLow 90 0 ≠ quantHigh 90 10 ∧
      packAll 8 ⟨0, 0, 180, 10⟩ [(0, 0), (180, 10)] = .error .structError := by
  refine ⟨by decide +kernel, by decide +kernel, by decide +kernel, by decide +kernel⟩

/-- C159: an entity whose extent is lost by rounding cannot be written, though its exact box is not empty. -/
theorem C159_narrow_violated : ∃ x : ℚ, IsDouble x ∧ 12 < x ∧
    packAll 4 ⟨12, 0, x, 10⟩ [(12, 0), (x, 10)] = .error .zeroDivisionError := by
  refine ⟨(12 * 2 ^ 49 + 1 : ℤ) * 2 ^ (-49 : ℤ), double_mk (by norm_num) (by norm_num), by norm_num, by decide +kernel⟩

example : quantLow 180 0 ≠ quantHigh 180 180 ∧ quantLow 90 0 ≠ quantHigh 90 10 ∧
    packAll 4 ⟨0, 0, 180, 10⟩ [(0, 0), (180, 10)] = .ok [0, 1, 0, 0, 0, 8, 255, 76, 255, 255, 255, 255, 255, 244, 0, 239] := by
  decide +kernel

/-! ### C160

The loops of pf.py:168-173 add 45·2^(j+1) below -45·2^j (j = 2 for longitudes, 1 for latitudes). -/

theorem double_multiple {n : ℤ} {j : ℕ} (h : |(n : ℚ) * 2 ^ j| ≤ 2 ^ (j + 53)) : IsDouble ((n : ℚ) * 2 ^ j) := by
  have hp : (0 : ℚ) < 2 ^ j := by positivity
  rw [abs_mul, abs_of_pos hp, pow_add, mul_comm ((2 : ℚ) ^ j)] at h
  have h1 : |(n : ℚ)| ≤ 2 ^ 53 := le_of_mul_le_mul_right h hp
  have h2 : |n| ≤ 2 ^ 53 := by rw [← Int.cast_abs] at h1; exact_mod_cast h1
  have := double_mk h2 (e := (j : ℤ)) (by omega)
  rwa [zpow_natCast] at this

/-- Below 2^(j+60) the error is at most 2^(j+6). -/
theorem loop_error {z : ℚ} {j : ℕ} (h : |z| ≤ 2 ^ (j + 60)) : |fl z - z| ≤ 2 ^ (j + 6) := by
  have hp : (0 : ℚ) < 2 ^ (j + 7) := by positivity
  have e : ∀ n : ℤ, ((n : ℚ) * 2 ^ (j + 7) - z) = (n - z / 2 ^ (j + 7)) * 2 ^ (j + 7) := by intro n; field_simp
  have h1 := pyRound_abs (z / 2 ^ (j + 7))
  have hb : |z / 2 ^ (j + 7)| ≤ ((2 ^ 53 : ℤ) : ℚ) := by
    rw [abs_div, abs_of_pos hp, div_le_iff₀ hp]
    refine le_trans h (le_of_eq ?_)
    push_cast
    rw [pow_add, pow_add]
    ring
  obtain ⟨b1, b2⟩ := abs_le.mp hb
  have r1 := pyRound_le_of_le b2
  have r2 := le_pyRound_of_le (x := z / 2 ^ (j + 7)) (n := -2 ^ 53) (by push_cast at b1 ⊢; linarith)
  have hd := double_mk (m := pyRound (z / 2 ^ (j + 7))) (e := ((j + 7 : ℕ) : ℤ)) (by rw [abs_le]; constructor <;> omega) (by omega)
  rw [zpow_natCast] at hd
  refine le_trans (fl_nearest z hd) ?_
  rw [e, abs_mul, abs_of_pos hp]
  have := mul_le_mul_of_nonneg_right h1 hp.le
  have e2 : (2 : ℚ) ^ (j + 7) = 2 * 2 ^ (j + 6) := by rw [show j + 7 = (j + 6) + 1 by ring, pow_succ]; ring
  rw [e2] at this ⊢
  linarith

/-- Adding the step moves the number up. -/
theorem loop_progress {x : ℚ} {j : ℕ} (h0 : -2 ^ (j + 60) ≤ x) (h1 : x < -(45 * 2 ^ j)) :
    x + 26 * 2 ^ j ≤ fl (x + 45 * 2 ^ (j + 1)) ∧ fl (x + 45 * 2 ^ (j + 1)) ≤ 45 * 2 ^ j := by
  have hp : (0 : ℚ) < 2 ^ j := by positivity
  have e1 : (2 : ℚ) ^ (j + 1) = 2 * 2 ^ j := by rw [pow_succ]; ring
  have e6 : (2 : ℚ) ^ (j + 6) = 64 * 2 ^ j := by rw [pow_add]; ring
  have e60 : (2 : ℚ) ^ (j + 60) = 1152921504606846976 * 2 ^ j := by rw [pow_add]; ring
  constructor
  · have := loop_error (z := x + 45 * 2 ^ (j + 1)) (j := j) (by
      rw [e60] at h0 ⊢
      rw [e1, abs_le]; constructor <;> linarith)
    rw [e6] at this
    rw [e1] at this ⊢
    have := (abs_le.mp this).1
    linarith
  · refine fl_le ?_ (by rw [e1]; linarith)
    have := double_multiple (n := 45) (j := j) (by
      push_cast
      rw [abs_of_pos (by positivity), pow_add]
      have : (45 : ℚ) ≤ 2 ^ 53 := by norm_num
      have := mul_le_mul_of_nonneg_right this hp.le
      linarith)
    simpa using this

/-- The loop ends. -/
theorem loop_ends {x : ℚ} {j : ℕ} (h0 : -2 ^ (j + 60) ≤ x) (h1 : x ≤ 45 * 2 ^ j) :
    ∃ v, While (fun x : ℚ => x < -(45 * 2 ^ j)) (fun x => fl (x + 45 * 2 ^ (j + 1))) x v ∧ -(45 * 2 ^ j) ≤ v ∧ v ≤ 45 * 2 ^ j := by
  have hp : (0 : ℚ) < 2 ^ j := by positivity
  obtain ⟨k, hk⟩ := exists_nat_ge (-x / (26 * 2 ^ j))
  rw [div_le_iff₀ (by positivity)] at hk
  induction k generalizing x with
  | zero =>
    refine ⟨x, .done (by push Not; simp only [Nat.cast_zero, zero_mul] at hk; linarith), ?_, h1⟩
    simp only [Nat.cast_zero, zero_mul] at hk
    linarith
  | succ k ih =>
    by_cases hx : x < -(45 * 2 ^ j)
    · obtain ⟨p1, p2⟩ := loop_progress h0 hx
      push_cast at hk
      obtain ⟨v, hv, r⟩ := ih (x := fl (x + 45 * 2 ^ (j + 1))) (by linarith) p2 (by linarith)
      exact ⟨v, .step hx hv, r⟩
    · exact ⟨x, .done hx, not_lt.mp hx, h1⟩

/-- Further down adding the step does nothing. -/
theorem loop_stuck {x : ℚ} {j : ℕ} (hx : IsDouble x) (h : x < -2 ^ (j + 60)) : fl (x + 45 * 2 ^ (j + 1)) = x := by
  have hp : (0 : ℚ) < 2 ^ j := by positivity
  have e1 : (2 : ℚ) ^ (j + 1) = 2 * 2 ^ j := by rw [pow_succ]; ring
  have e8 : (2 : ℚ) ^ (j + 8) = 256 * 2 ^ j := by rw [pow_add]; ring
  have e60 : (2 : ℚ) ^ (j + 60) = 1152921504606846976 * 2 ^ j := by rw [pow_add]; ring
  obtain ⟨G, hG⟩ : ∃ G : ℤ, G = 4503599627370496 := ⟨_, rfl⟩
  have eg : (G : ℚ) * 2 ^ (j + 8) = 2 ^ (j + 60) := by rw [hG, e8, e60]; push_cast; ring
  clear hG
  have big : ∀ d : ℚ, IsDouble d → d ≤ -2 ^ (j + 60) → ∃ n : ℤ, d = n * 2 ^ (j + 8) := by
    intro d hd hb
    refine double_int_of_large hd (k := j + 8) ?_
    rw [show j + 8 + 52 = j + 60 by ring, abs_of_nonpos (by linarith [pow_pos (by norm_num : (0 : ℚ) < 2) (j + 60)])]
    linarith
  obtain ⟨n, hn⟩ := big x hx h.le
  have hge : x ≤ fl (x + 45 * 2 ^ (j + 1)) := le_fl hx (by rw [e1]; linarith)
  by_contra hne
  have hgt : x < fl (x + 45 * 2 ^ (j + 1)) := lt_of_le_of_ne hge (Ne.symm hne)
  have hnear := fl_nearest (x + 45 * 2 ^ (j + 1)) hx
  have hdd := fl_double (x + 45 * 2 ^ (j + 1))
  generalize fl (x + 45 * 2 ^ (j + 1)) = d at *
  have hstep : x + 2 ^ (j + 8) ≤ d := by
    have hp8 : (0 : ℚ) < 2 ^ (j + 8) := by positivity
    by_cases hb : d ≤ -2 ^ (j + 60)
    · obtain ⟨m, hm⟩ := big d hdd hb
      rw [hn, hm] at hgt ⊢
      have : (n : ℚ) < m := lt_of_mul_lt_mul_right hgt hp8.le
      have : n + 1 ≤ m := by exact_mod_cast this
      have : (n : ℚ) + 1 ≤ m := by exact_mod_cast this
      have := mul_le_mul_of_nonneg_right this hp8.le
      linarith
    · push Not at hb
      rw [hn, ← eg] at h
      have h' : (n : ℚ) * 2 ^ (j + 8) < ((-G : ℤ) : ℚ) * 2 ^ (j + 8) := by push_cast; linarith
      have : (n : ℚ) < ((-G : ℤ) : ℚ) := lt_of_mul_lt_mul_right h' hp8.le
      have : n + 1 ≤ -G := by exact_mod_cast this
      have : (n : ℚ) + 1 ≤ ((-G : ℤ) : ℚ) := by exact_mod_cast this
      have := mul_le_mul_of_nonneg_right this hp8.le
      rw [← eg] at hb
      rw [hn]
      push_cast at this hb ⊢
      linarith
  have a1 : x - (x + 45 * 2 ^ (j + 1)) = -(90 * 2 ^ j) := by rw [e1]; ring
  clear eg big h e60
  rw [a1, abs_neg, abs_of_pos (mul_pos (by norm_num) hp)] at hnear
  have := (abs_le.mp hnear).2
  rw [e1] at this
  rw [e8] at hstep
  linarith

theorem loop_hangs {x : ℚ} {j : ℕ} (hx : IsDouble x) (h : x < -2 ^ (j + 60)) :
    ¬ ∃ v, While (fun x : ℚ => x < -(45 * 2 ^ j)) (fun x => fl (x + 45 * 2 ^ (j + 1))) x v := by
  have hp : (0 : ℚ) < 2 ^ j := by positivity
  have e60 : (2 : ℚ) ^ (j + 60) = 1152921504606846976 * 2 ^ j := by rw [pow_add]; ring
  refine While.diverges (I := fun y => y = x) ?_ ?_ rfl
  · rintro s rfl
    rw [e60] at h
    linarith
  · rintro s rfl
    exact loop_stuck hx h

/-- Where the step is a multiple of the last bit, adding it is exact. -/
theorem loop_exact {x : ℚ} {j : ℕ} (hx : IsDouble x) (h0 : -2 ^ (j + 54) ≤ x) (h1 : x < -(45 * 2 ^ j)) :
    fl (x + 45 * 2 ^ (j + 1)) = x + 45 * 2 ^ (j + 1) := by
  have hp : (0 : ℚ) < 2 ^ j := by positivity
  have e1 : (2 : ℚ) ^ (j + 1) = 2 * 2 ^ j := by rw [pow_succ]; ring
  refine fl_id ?_
  obtain ⟨m, e, hm, he, hxe⟩ := hx
  have habs : |x + 45 * 2 ^ (j + 1)| ≤ |x| := by
    rw [e1, abs_of_neg (by linarith : x < 0), abs_le]
    constructor <;> linarith
  by_cases hej : e ≤ (j : ℤ) + 1
  · -- the grid of `x`
    obtain ⟨k, hk⟩ := zpow_split hej
    have hz : x + 45 * 2 ^ (j + 1) = ((m + 45 * 2 ^ k : ℤ) : ℚ) * 2 ^ e := by
      have : (2 : ℚ) ^ (j + 1) = 2 ^ ((j : ℤ) + 1) := by exact_mod_cast (zpow_natCast (2 : ℚ) (j + 1)).symm
      rw [this, hk, hxe]; push_cast; ring
    refine ⟨m + 45 * 2 ^ k, e, ?_, he, hz⟩
    rw [hz, hxe, abs_mul, abs_mul] at habs
    have := le_of_mul_le_mul_right habs (abs_pos.mpr (two_zpow_pos e).ne')
    rw [← Int.cast_abs, ← Int.cast_abs] at this
    have : |m + 45 * 2 ^ k| ≤ |m| := by exact_mod_cast this
    omega
  · push Not at hej
    obtain ⟨k, hk⟩ := zpow_split hej.le
    have hz : x + 45 * 2 ^ (j + 1) = ((m * 2 ^ k + 45 : ℤ) : ℚ) * 2 ^ (j + 1) := by
      have : (2 : ℚ) ^ (j + 1) = 2 ^ ((j : ℤ) + 1) := by exact_mod_cast (zpow_natCast (2 : ℚ) (j + 1)).symm
      rw [this, hxe, hk]; push_cast; ring
    rw [hz]
    refine double_multiple ?_
    rw [← hz]
    refine le_trans habs ?_
    rw [abs_of_neg (by linarith : x < 0), show j + 1 + 53 = j + 54 by ring]
    linarith

theorem loop_same {x v : ℚ} {j : ℕ} (hx : IsDouble x) (h0 : -2 ^ (j + 54) ≤ x)
    (h : While (fun x : ℚ => x < -(45 * 2 ^ j)) (fun x => x + 45 * 2 ^ (j + 1)) x v) :
    While (fun x : ℚ => x < -(45 * 2 ^ j)) (fun x => fl (x + 45 * 2 ^ (j + 1))) x v := by
  induction h with
  | done hn => exact .done hn
  | step hc _ ih =>
    have e := loop_exact hx h0 hc
    refine .step hc ?_
    rw [e]
    refine ih (by rw [← e]; exact fl_double _) ?_
    have : (0 : ℚ) < 45 * 2 ^ (j + 1) := by positivity
    linarith

theorem while_map {S T : Type} {c : S → Prop} {b : S → S} {c' : T → Prop} {b' : T → T} (f : S → T) (hc : ∀ s, c s ↔ c' (f s))
    (hb : ∀ s, f (b s) = b' (f s)) {s t : S} (h : While c b s t) : While c' b' (f s) (f t) := by
  induction h with
  | done hn => exact .done (fun h => hn ((hc _).mpr h))
  | step h1 _ ih => exact .step ((hc _).mp h1) (by rw [← hb]; exact ih)

/-- The loop from above is the mirror image. -/
theorem lon_mirror {x v : ℚ} : While (fun x : ℚ => 180 < x) (fun x => fl (x - 360)) x v ↔
    While (fun x : ℚ => x < -180) (fun x => fl (x + 360)) (-x) (-v) := by
  constructor
  · intro h
    refine while_map (fun y : ℚ => -y) (fun s => ?_) (fun s => ?_) h
    · constructor <;> intro h <;> linarith
    · rw [← fl_neg]; congr 1; ring
  · intro h
    have := while_map (c' := fun x : ℚ => 180 < x) (b' := fun x => fl (x - 360)) (fun y : ℚ => -y) (fun s => ?_) (fun s => ?_) h
    · simpa using this
    · constructor <;> intro h <;> linarith
    · rw [← fl_neg]; congr 1; ring

/-- C160: the loops over a longitude end exactly for the floats from -2⁶² to 2⁶², between -180 and 180; they leave the longitudes of that range
as they are. -/
theorem C160_longitude_ends (lon : ℚ) (hd : IsDouble lon) : ((∃ v, LonEnds lon v) ↔ |lon| ≤ 2 ^ 62) ∧
    (∀ v, LonEnds lon v → -180 ≤ v ∧ v ≤ 180 ∧ (|lon| ≤ 180 → v = lon)) := by
  have up : ∀ x : ℚ, -2 ^ 62 ≤ x → x ≤ 180 → ∃ v, While (fun x : ℚ => x < -180) (fun x => fl (x + 360)) x v ∧ -180 ≤ v ∧ v ≤ 180 := by
    intro x h0 h1
    have := loop_ends (x := x) (j := 2) (by norm_num at h0 ⊢; exact h0) (by norm_num; exact h1)
    norm_num at this
    exact this
  have stuck : ∀ x : ℚ, IsDouble x → x < -2 ^ 62 → ¬ ∃ v, While (fun x : ℚ => x < -180) (fun x => fl (x + 360)) x v := by
    intro x hx h0
    have := loop_hangs (x := x) (j := 2) hx (by norm_num at h0 ⊢; exact h0)
    norm_num at this ⊢
    exact this
  rcases lt_or_ge lon (-180) with hl | hl
  · -- from below
    by_cases hb : -2 ^ 62 ≤ lon
    · obtain ⟨v, hv, r0, r1⟩ := up lon hb (by linarith)
      have hend : LonEnds lon v := ⟨v, hv, .done (by push Not; exact r1)⟩
      refine ⟨⟨fun _ => by rw [abs_le]; exact ⟨hb, by linarith [show (0:ℚ) ≤ 2 ^ 62 by positivity]⟩, fun _ => ⟨v, hend⟩⟩, ?_⟩
      rintro w ⟨mid, hm, hw⟩
      have := While.det hv hm
      subst this
      have := While.det (.done (by push Not; exact r1)) hw
      subst this
      exact ⟨r0, r1, fun h => absurd (abs_le.mp h).1 (by linarith)⟩
    · push Not at hb
      have hn : ¬ ∃ v, LonEnds lon v := by
        rintro ⟨v, mid, hm, -⟩
        exact stuck lon hd hb ⟨mid, hm⟩
      refine ⟨⟨fun h => absurd h hn, fun h => absurd (abs_le.mp h).1 (by linarith)⟩, fun v hv => absurd ⟨v, hv⟩ hn⟩
  · have first : ∀ {mid}, While (fun x : ℚ => x < -180) (fun x => fl (x + 360)) lon mid → mid = lon := by
      intro mid hm
      exact (While.det (.done (by push Not; exact hl)) hm).symm
    rcases le_or_gt lon 180 with hr | hr
    · refine ⟨⟨fun _ => ?_, fun _ => ⟨lon, lon, .done (by push Not; exact hl), .done (by push Not; exact hr)⟩⟩, ?_⟩
      · rw [abs_le]; norm_num; constructor <;> linarith
      · rintro v ⟨mid, hm, hv⟩
        rw [first hm] at hv
        have := While.det (.done (by push Not; exact hr)) hv
        rw [← this]
        exact ⟨hl, hr, fun _ => rfl⟩
    · by_cases hb : lon ≤ 2 ^ 62
      · obtain ⟨v, hv, r0, r1⟩ := up (-lon) (by linarith) (by linarith)
        have hv' := (lon_mirror (x := lon) (v := -v)).mpr (by rwa [neg_neg])
        refine ⟨⟨fun _ => by rw [abs_le]; exact ⟨by linarith [show (0:ℚ) ≤ 2 ^ 62 by positivity], hb⟩,
          fun _ => ⟨-v, lon, .done (by push Not; exact hl), hv'⟩⟩, ?_⟩
        rintro w ⟨mid, hm, hw⟩
        rw [first hm] at hw
        have := While.det hv' hw
        rw [← this]
        exact ⟨by linarith, by linarith, fun h => absurd (abs_le.mp h).2 (by linarith)⟩
      · push Not at hb
        have hn : ¬ ∃ v, LonEnds lon v := by
          rintro ⟨v, mid, hm, hv⟩
          rw [first hm] at hv
          exact stuck (-lon) (double_neg hd) (by linarith) ⟨-v, lon_mirror.mp hv⟩
        exact ⟨⟨fun h => absurd h hn, fun h => absurd (abs_le.mp h).2 (by linarith)⟩, fun v hv => absurd ⟨v, hv⟩ hn⟩

/-- C160: up to 2⁵⁶ nothing is lost: the result differs from the longitude by a multiple of 360 exactly. -/
theorem C160_longitude_exact (lon : ℚ) (hd : IsDouble lon) (h : |lon| ≤ 2 ^ 56) :
    LonEnds lon (wrapLon lon) ∧ ∃ k : ℤ, wrapLon lon = lon + 360 * k := by
  have same : ∀ {x v : ℚ}, IsDouble x → -2 ^ 56 ≤ x → While (fun x : ℚ => x < -180) (fun x => x + 360) x v →
      While (fun x : ℚ => x < -180) (fun x => fl (x + 360)) x v := by
    intro x v hx h0 hw
    have := loop_same (x := x) (v := v) (j := 2) hx (by norm_num at h0 ⊢; exact h0) (by norm_num; exact hw)
    norm_num at this
    exact this
  obtain ⟨mid, h1, h2⟩ := wrapLon_loops lon
  obtain ⟨b1, b2⟩ := abs_le.mp h
  refine ⟨⟨mid, same hd b1 h1, ?_⟩, ?_⟩
  · -- either loop does nothing unless the other does
    rcases lt_or_ge lon (-180) with hl | hl
    · have hm : ¬ 180 < mid := by
        have : mid ≤ 180 := by
          refine h1.inv (I := fun x => x ≤ 180) (fun s hs _ => ?_) (by linarith)
          have : s < -180 := hs
          show s + 360 ≤ 180
          linarith
        linarith
      have := While.det (.done hm) h2
      rw [← this]
      exact .done hm
    · have : mid = lon := (While.det (.done (by push Not; exact hl)) h1).symm
      subst this
      rw [lon_mirror]
      refine same (double_neg hd) (by linarith) ?_
      refine while_map (fun y : ℚ => -y) (fun s => ?_) (fun s => ?_) h2
      · constructor <;> intro h <;> linarith
      · ring
  · simp only [wrapLon]
    split
    · exact ⟨_, rfl⟩
    · split
      · exact ⟨-⌈(lon - 180) / 360⌉, by push_cast; ring⟩
      · exact ⟨0, by simp⟩

/-- C160: the loops over a latitude end exactly for the floats from -2⁶¹ to 90, between -90 and 90; up to 2⁵⁵ nothing is lost. -/
theorem C160_latitude_ends (lat : ℚ) (hd : IsDouble lat) : ((∃ v, LatEnds lat v) ↔ -2 ^ 61 ≤ lat ∧ lat ≤ 90) ∧
    (∀ v, LatEnds lat v → -90 ≤ v ∧ v ≤ 90 ∧ (|lat| ≤ 90 → v = lat)) ∧
    (-2 ^ 55 ≤ lat → ∀ v, wrapLat lat = .ok v → LatEnds lat v) := by
  have up : ∀ x : ℚ, -2 ^ 61 ≤ x → x ≤ 90 → ∃ v, While (fun x : ℚ => x < -90) (fun x => fl (x + 180)) x v ∧ -90 ≤ v ∧ v ≤ 90 := by
    intro x h0 h1
    have := loop_ends (x := x) (j := 1) (by norm_num at h0 ⊢; exact h0) (by norm_num; exact h1)
    norm_num at this
    exact this
  have stuck : ∀ x : ℚ, IsDouble x → x < -2 ^ 61 → ¬ ∃ v, While (fun x : ℚ => x < -90) (fun x => fl (x + 180)) x v := by
    intro x hx h0
    have := loop_hangs (x := x) (j := 1) hx (by norm_num at h0 ⊢; exact h0)
    norm_num at this ⊢
    exact this
  have same : ∀ {x v : ℚ}, IsDouble x → -2 ^ 55 ≤ x → While (fun x : ℚ => x < -90) (fun x => x + 180) x v →
      While (fun x : ℚ => x < -90) (fun x => fl (x + 180)) x v := by
    intro x v hx h0 hw
    have := loop_same (x := x) (v := v) (j := 1) hx (by norm_num at h0 ⊢; exact h0) (by norm_num; exact hw)
    norm_num at this
    exact this
  have north : 90 < lat → ¬ ∃ v, LatEnds lat v := by
    rintro hl ⟨v, mid, hm, hv⟩
    have : mid = lat := (While.det (.done (by push Not; linarith)) hm).symm
    subst this
    refine While.diverges (I := fun y : ℚ => 90 < y ∧ IsDouble y) (fun s hs => hs.1) (fun s hs => ⟨?_, fl_double _⟩) ⟨hl, hd⟩ ⟨v, hv⟩
    have := le_fl hs.2 (by linarith : s ≤ s + 180)
    linarith [hs.1]
  have ends : -2 ^ 61 ≤ lat → lat ≤ 90 → ∃ v, LatEnds lat v ∧ -90 ≤ v ∧ v ≤ 90 := by
    intro h0 h1
    obtain ⟨v, hv, r0, r1⟩ := up lat h0 h1
    exact ⟨v, ⟨v, hv, .done (by push Not; exact r1)⟩, r0, r1⟩
  have det : ∀ {v w}, LatEnds lat v → LatEnds lat w → v = w := by
    rintro v w ⟨m, a1, a2⟩ ⟨m', b1, b2⟩
    have := While.det a1 b1
    subst this
    exact While.det a2 b2
  refine ⟨⟨?_, fun ⟨h0, h1⟩ => (ends h0 h1).imp fun _ h => h.1⟩, ?_, ?_⟩
  · rintro ⟨v, hv⟩
    refine ⟨?_, ?_⟩
    · by_contra hc
      push Not at hc
      obtain ⟨mid, hm, -⟩ := hv
      exact stuck lat hd hc ⟨mid, hm⟩
    · by_contra hc
      push Not at hc
      exact north hc ⟨v, hv⟩
  · intro v hv
    have h0 : -2 ^ 61 ≤ lat := by
      by_contra hc
      push Not at hc
      obtain ⟨mid, hm, -⟩ := hv
      exact stuck lat hd hc ⟨mid, hm⟩
    have h1 : lat ≤ 90 := by
      by_contra hc
      push Not at hc
      exact north hc ⟨v, hv⟩
    obtain ⟨w, hw, r0, r1⟩ := ends h0 h1
    rw [det hv hw]
    refine ⟨r0, r1, fun h => ?_⟩
    obtain ⟨b1, b2⟩ := abs_le.mp h
    exact det hw ⟨lat, .done (by push Not; exact b1), .done (by push Not; exact b2)⟩
  · intro h0 v hv
    obtain ⟨mid, hm, hv'⟩ := wrapLat_loops lat v hv
    have m90 : ¬ 90 < mid := by
      have hlat : lat ≤ 90 := by
        by_contra hc
        push Not at hc
        have : mid = lat := (While.det (.done (by push Not; linarith)) hm).symm
        subst this
        exact While.diverges (I := fun x : ℚ => 90 < x) (fun s hs => hs) (fun s hs => by linarith) hc ⟨v, hv'⟩
      have : mid ≤ 90 := by
        refine hm.inv (I := fun x => x ≤ 90) (fun s hs _ => ?_) hlat
        have : s < -90 := hs
        show s + 180 ≤ 90
        linarith
      linarith
    have := While.det (.done m90) hv'
    subst this
    exact ⟨mid, same hd h0 hm, .done m90⟩

example : IsDouble 1000 ∧ |(1000 : ℚ)| ≤ 2 ^ 56 ∧ wrapLon (1000 : ℚ) = -80 ∧ ¬ |(2 ^ 70 : ℚ)| ≤ 2 ^ 62 := by
  refine ⟨by simpa using double_int (n := 1000) (by norm_num), by norm_num, by decide +kernel, by norm_num⟩

end Flt
end Coral
