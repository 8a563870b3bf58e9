import Verif.Model.FloatsD
import Verif.Proofs.AALine
import Verif.Props.Floats
import Verif.Props.FloatsC
import Mathlib.Algebra.Order.Group.MinMax

/-!
# Anti-aliased lines on floats (C166)
-/
namespace Coral
namespace Flt

open Buffer (pyIndex_nat pySetItem_nat)

/-! ### The running sum -/

/-- The ordinates of the columns: the first one, then always the sum with the gradient, rounded. -/
def ordinate (g y : ℚ) : Nat → ℚ
  | 0 => y
  | n + 1 => fl (ordinate g y n + g)

theorem step_error {z : ℚ} (h : |z| ≤ 2 ^ 17) : |fl z - z| ≤ 3 / 2 * 2 ^ (-36 : ℤ) := by
  refine le_trans (fl_error z) ?_
  have h1 : |z| * 2 ^ (-53 : ℤ) ≤ 2 ^ 17 * 2 ^ (-53 : ℤ) := mul_le_mul_of_nonneg_right h (two_zpow_pos _).le
  have h2 : (2 : ℚ) ^ (-1075 : ℤ) ≤ 2 ^ (-53 : ℤ) := zpow_le_zpow_right₀ (by norm_num) (by norm_num)
  refine le_trans (add_le_add h1 h2) ?_
  norm_num

/-- As long as the exact ordinates stay below 2¹⁶, each step adds at most 2⁻³⁵ to the error. -/
theorem ordinate_close {G y : ℚ} (hG : |G| ≤ 1) {n : Nat} (hn : n ≤ 2 ^ 16) (hy : ∀ k : Nat, k ≤ n → 0 ≤ y + G * k ∧ y + G * k ≤ 2 ^ 16) :
    ∀ k : Nat, k ≤ n → |ordinate (fl G) y k - (y + G * k)| ≤ k * 2 ^ (-35 : ℤ) := by
  have hg : |fl G - G| ≤ 2 ^ (-52 : ℤ) := err_small hG
  intro k
  induction k with
  | zero =>
    intro _
    simp [ordinate]
  | succ k ih =>
    intro hk
    have ih := ih (by omega)
    have e := hy k (by omega)
    have hk' : (k : ℚ) ≤ 2 ^ 16 := by exact_mod_cast (by omega : k ≤ 2 ^ 16)
    have hk0 : (0 : ℚ) ≤ k := by positivity
    have hb : (k : ℚ) * 2 ^ (-35 : ℤ) ≤ 1 := by
      refine le_trans (mul_le_mul_of_nonneg_right hk' (two_zpow_pos _).le) ?_
      norm_num
    have h52 : (2 : ℚ) ^ (-52 : ℤ) ≤ 1 := by norm_num
    have hsum : 3 / 2 * (2 : ℚ) ^ (-36 : ℤ) + 2 ^ (-52 : ℤ) ≤ 2 ^ (-35 : ℤ) := by norm_num
    show |fl (ordinate (fl G) y k + fl G) - _| ≤ _
    generalize ordinate (fl G) y k = o at *
    generalize fl G = g at *
    have hs : |o + g| ≤ 2 ^ 17 := by
      rw [abs_le] at *
      obtain ⟨a1, a2⟩ := ih
      obtain ⟨b1, b2⟩ := hg
      obtain ⟨c1, c2⟩ := hG
      constructor <;> norm_num <;> linarith
    have hst := step_error hs
    generalize fl (o + g) = z at *
    push_cast
    generalize (2 : ℚ) ^ (-35 : ℤ) = u at *
    generalize (2 : ℚ) ^ (-36 : ℤ) = v at *
    generalize (2 : ℚ) ^ (-52 : ℤ) = w at *
    rw [abs_le] at *
    obtain ⟨a1, a2⟩ := ih
    obtain ⟨b1, b2⟩ := hg
    obtain ⟨d1, d2⟩ := hst
    constructor <;> linarith

/-! ### The assignments -/

/-- The two assignments of an inner column. -/
def nearPixels (flip : Bool) (x : Int) (y : ℚ) : List ((Int × Int) × ℚ) :=
  [(pixelAt flip x ⌊y⌋, fl (1 - Int.fract y)), (pixelAt flip x (⌊y⌋ + 1), Int.fract y)]

theorem put_eq (steep : Bool) (x : Int) {y : ℚ} (h : 0 ≤ y) : aaPut steep x y (fl (1 - fpart y)) (fpart y) = nearPixels steep x y := by
  rw [aaPut, nearPixels, fpart_nonneg h, pyTrunc, if_pos h]
  cases steep <;> rfl

theorem fl_intCast {n : ℤ} (h : |n| ≤ 2 ^ 53) : fl (n : ℚ) = n := fl_id (double_int h)

theorem fl_zero : fl 0 = 0 := fl_id double_zero

theorem fl_one : fl 1 = 1 := by simpa using fl_intCast (n := 1) (by norm_num)

theorem fl_one_half : fl (1 / 2) = 1 / 2 := fl_id ⟨1, -1, by norm_num, by norm_num, by norm_num⟩

theorem fl_int_half {n : ℤ} (h0 : 0 ≤ n) (h : n < 2 ^ 16) : fl ((n : ℚ) + 1 / 2) = n + 1 / 2 :=
  fl_id ⟨2 * n + 1, -1, by rw [abs_of_nonneg (by omega)]; omega, by norm_num, by push_cast; norm_num; ring⟩

theorem nearest_pixel {n : ℤ} (h0 : 0 ≤ n) (h : n < 2 ^ 16) : nearest (n : ℚ) = n := by
  have h0' : (0 : ℚ) ≤ n := by exact_mod_cast h0
  rw [nearest_pos h0', fl_int_half h0 h, Int.floor_eq_iff]
  constructor <;> linarith

theorem end_eq (steep : Bool) (g : ℚ) {a : Int × Int} (h1 : 0 ≤ a.1 ∧ a.1 < 2 ^ 16) (h2 : 0 ≤ a.2 ∧ a.2 < 2 ^ 16) :
    aaEnd steep g (ptOf a) = twoPixels steep a.1 (a.2 : ℚ) (1 / 2) := by
  have h0' : (0 : ℚ) ≤ a.2 := by exact_mod_cast h2.1
  have h1' : (0 : ℚ) ≤ a.1 := by exact_mod_cast h1.1
  simp only [aaEnd, ptOf]
  rw [nearest_pixel h1.1 h1.2, sub_self, fl_zero, mul_zero, fl_zero, add_zero, fl_intCast (by rw [abs_of_nonneg h2.1]; omega), fl_int_half h1.1 h1.2,
    fpart_nonneg h0', fpart_nonneg (by linarith), Int.fract_intCast, Int.fract_intCast_add, twoPixels, Int.fract_intCast, Int.floor_intCast,
    show Int.fract (1 / 2 : ℚ) = 1 / 2 from Int.fract_eq_self.mpr ⟨by norm_num, by norm_num⟩, aaPut, pyTrunc, if_pos h0', Int.floor_intCast]
  rw [sub_zero, fl_one, one_mul, zero_mul, fl_zero, zero_mul, show (1 : ℚ) - 1 / 2 = 1 / 2 by norm_num, fl_one_half, fl_one_half, one_mul]
  cases steep <;> rfl

theorem inner_eq (steep : Bool) (g : ℚ) (n : Nat) (x : Int) (y : ℚ) (m : Nat) (h : ∀ i : Nat, i < n → 0 ≤ ordinate g y (m + i)) :
    aaInner steep g n x (ordinate g y m) = (List.range n).flatMap fun i : Nat => nearPixels steep (x + i) (ordinate g y (m + i)) := by
  induction n generalizing x m with
  | zero => rfl
  | succ n ih =>
    have h0 := h 0 (by omega)
    rw [add_zero] at h0
    rw [aaInner, show fl (ordinate g y m + g) = ordinate g y (m + 1) from rfl, ih, List.range_succ_eq_map, List.flatMap_cons, List.flatMap_map, put_eq steep x h0]
    · simp only [Nat.cast_zero, add_zero]
      congr 2
      funext i
      have e1 : x + 1 + (i : Int) = x + ((i.succ : Nat) : Int) := by push_cast; ring
      have e2 : m + 1 + i = m + i.succ := by omega
      rw [e1, e2]
    · intro i hi
      have := h (i + 1) (by omega)
      rwa [show m + 1 + i = m + (i + 1) by omega]

/-- The line from `a` to `b`, by columns; its rounded height over column `x`. -/
def heightF (a b : Int × Int) (x : Int) : ℚ := ordinate (fl (((b.2 : ℚ) - a.2) / ((b.1 : ℚ) - a.1))) a.2 (x - a.1).toNat

/-- The bounds of what can be drawn: coordinates from 0 to 65535. -/
def Small (a : Int × Int) : Prop := (0 ≤ a.1 ∧ a.1 < 2 ^ 16) ∧ (0 ≤ a.2 ∧ a.2 < 2 ^ 16)

section
variable {a b : Int × Int} (ha : Small a) (hb : Small b) (h : a.1 < b.1) (hs : |b.2 - a.2| ≤ b.1 - a.1)
include ha hb h hs

theorem heightF_close {x : Int} (h1 : a.1 ≤ x) (h2 : x ≤ b.1) :
    |heightF a b x - heightAt (ptOf a : ℚ × ℚ) (ptOf b) x| ≤ 2 ^ (-19 : ℤ) := by
  obtain ⟨⟨p1, p2⟩, p3, p4⟩ := ha
  obtain ⟨⟨q1, q2⟩, q3, q4⟩ := hb
  have hd : (0 : ℚ) < (b.1 : ℚ) - a.1 := by
    rw [sub_pos]
    exact_mod_cast h
  have hG : |((b.2 : ℚ) - a.2) / ((b.1 : ℚ) - a.1)| ≤ 1 := by
    rw [abs_div, abs_of_pos hd, div_le_one hd]
    exact_mod_cast hs
  have hh : ∀ k : Nat, k ≤ (b.1 - a.1).toNat → 0 ≤ (a.2 : ℚ) + ((b.2 : ℚ) - a.2) / ((b.1 : ℚ) - a.1) * k ∧
      (a.2 : ℚ) + ((b.2 : ℚ) - a.2) / ((b.1 : ℚ) - a.1) * k ≤ 2 ^ 16 := by
    intro k hk
    have := heightAt_between (p := (ptOf a : ℚ × ℚ)) (q := ptOf b) (by simp only [ptOf]; exact_mod_cast h) (x := ((a.1 + k : Int) : ℚ))
      (by simp only [ptOf]; push_cast; linarith [(Nat.cast_nonneg k : (0 : ℚ) ≤ k)])
      (by simp only [ptOf]; exact_mod_cast (by omega : a.1 + (k : Int) ≤ b.1)) (lo := 0) (hi := 2 ^ 16)
      ⟨by simp only [ptOf]; exact_mod_cast p3, by simp only [ptOf]; exact_mod_cast p4.le⟩
      ⟨by simp only [ptOf]; exact_mod_cast q3, by simp only [ptOf]; exact_mod_cast q4.le⟩
    simp only [heightAt, ptOf] at this
    push_cast at this
    rwa [add_sub_cancel_left] at this
  have key := ordinate_close hG (n := (b.1 - a.1).toNat) (by omega) hh (x - a.1).toNat (by omega)
  have e : (((x - a.1).toNat : Nat) : ℚ) = (x : ℚ) - a.1 := by
    have : (((x - a.1).toNat : Nat) : Int) = x - a.1 := by omega
    exact_mod_cast this
  have e2 : (((x - a.1).toNat : Nat) : ℚ) ≤ 2 ^ 16 := by exact_mod_cast (by omega : (x - a.1).toNat ≤ 2 ^ 16)
  rw [heightF, heightAt]
  simp only [ptOf]
  rw [← e]
  refine le_trans key (le_trans (mul_le_mul_of_nonneg_right e2 (two_zpow_pos _).le) ?_)
  norm_num

/-- Between the ends the rounded height stays between the ends, and is below the higher end, unless the line is level. -/
theorem heightF_between {lo hi : Int} (l1 : lo ≤ a.2) (l2 : lo ≤ b.2) (u1 : a.2 ≤ hi) (u2 : b.2 ≤ hi) {x : Int} (h1 : a.1 < x) (h2 : x < b.1) :
    (lo : ℚ) ≤ heightF a b x ∧ (heightF a b x < hi ∨ (heightF a b x = hi ∧ b.2 = hi)) := by
  have hd : (0 : ℚ) < (b.1 : ℚ) - a.1 := by
    rw [sub_pos]
    exact_mod_cast h
  by_cases he : a.2 = b.2
  · have : heightF a b x = a.2 := by
      rw [heightF, he, sub_self, zero_div, fl_zero]
      obtain ⟨_, q3, q4⟩ := hb
      generalize (x - a.1).toNat = k
      induction k with
      | zero => rfl
      | succ k ih => rw [ordinate, ih, add_zero, fl_intCast (by rw [abs_of_nonneg q3]; omega)]
    rw [this]
    refine ⟨by exact_mod_cast l1, ?_⟩
    rcases eq_or_lt_of_le u1 with e | e
    · exact .inr ⟨by exact_mod_cast e, by omega⟩
    · exact .inl (by exact_mod_cast e)
  · have hc := abs_le.mp (heightF_close ha hb h hs h1.le h2.le)
    obtain ⟨⟨p1, p2⟩, p3, p4⟩ := ha
    obtain ⟨⟨q1, q2⟩, q3, q4⟩ := hb
    have e : heightAt (ptOf a : ℚ × ℚ) (ptOf b) (x : ℚ) = ((a.2 : ℚ) * (b.1 - x) + b.2 * (x - a.1)) / (b.1 - a.1) := by
      simp only [heightAt, ptOf]
      field_simp
      ring
    have hd16 : (b.1 : ℚ) - a.1 ≤ 2 ^ 16 := by exact_mod_cast (by omega : b.1 - a.1 ≤ 2 ^ 16)
    have tiny : ((b.1 : ℚ) - a.1) * 2 ^ (-19 : ℤ) < 1 :=
      lt_of_le_of_lt (mul_le_mul_of_nonneg_right hd16 (two_zpow_pos _).le) (by norm_num)
    have i1 : lo * (b.1 - a.1) + 1 ≤ a.2 * (b.1 - x) + b.2 * (x - a.1) := by
      rcases lt_or_gt_of_ne he with hl | hl <;> nlinarith
    have i2 : a.2 * (b.1 - x) + b.2 * (x - a.1) + 1 ≤ hi * (b.1 - a.1) := by
      rcases lt_or_gt_of_ne he with hl | hl <;> nlinarith
    have j1 : (lo : ℚ) * ((b.1 : ℚ) - a.1) + 1 ≤ (a.2 : ℚ) * (b.1 - x) + b.2 * (x - a.1) := by exact_mod_cast i1
    have j2 : (a.2 : ℚ) * (b.1 - x) + b.2 * (x - a.1) + 1 ≤ (hi : ℚ) * ((b.1 : ℚ) - a.1) := by exact_mod_cast i2
    have k1 : (lo : ℚ) + 2 ^ (-19 : ℤ) ≤ heightAt (ptOf a : ℚ × ℚ) (ptOf b) (x : ℚ) := by
      rw [e, le_div_iff₀ hd]
      nlinarith
    have k2 : heightAt (ptOf a : ℚ × ℚ) (ptOf b) (x : ℚ) + 2 ^ (-19 : ℤ) < hi := by
      rw [e, ← lt_sub_iff_add_lt, div_lt_iff₀ hd]
      nlinarith
    exact ⟨by linarith [hc.1], .inl (by linarith [hc.2])⟩

/-- The assignments for a line between two pixels. -/
theorem draw_eq (steep : Bool) : aaDraw steep (ptOf a) (ptOf b) = .ok (twoPixels steep a.1 (a.2 : ℚ) (1 / 2) ++ twoPixels steep b.1 (b.2 : ℚ) (1 / 2) ++
      (intRange (a.1 + 1) b.1).flatMap fun x => nearPixels steep x (heightF a b x)) := by
  have hbet := fun x => heightF_between ha hb h hs (lo := 0) (hi := 2 ^ 16) (by have := ha.2; omega) (by have := hb.2; omega) (by have := ha.2; omega) (by have := hb.2; omega) (x := x)
  obtain ⟨⟨p1, p2⟩, p3, p4⟩ := ha
  obtain ⟨⟨q1, q2⟩, q3, q4⟩ := hb
  have hd : (b.1 : ℚ) - a.1 ≠ 0 := by
    rw [sub_ne_zero]
    exact_mod_cast h.ne'
  have d1 : fl ((b.1 : ℚ) - a.1) = (b.1 : ℚ) - a.1 := by
    have := fl_intCast (n := b.1 - a.1) (by rw [abs_le]; constructor <;> omega)
    push_cast at this
    exact this
  have d2 : fl ((b.2 : ℚ) - a.2) = (b.2 : ℚ) - a.2 := by
    have := fl_intCast (n := b.2 - a.2) (by rw [abs_le]; constructor <;> omega)
    push_cast at this
    exact this
  rw [aaDraw]
  simp only
  rw [end_eq steep _ ⟨p1, p2⟩ ⟨p3, p4⟩, end_eq steep _ ⟨q1, q2⟩ ⟨q3, q4⟩]
  simp only [ptOf]
  simp only [d1, d2, hd, if_false]
  rw [nearest_pixel p1 p2, nearest_pixel q1 q2, sub_self, fl_zero, mul_zero, fl_zero, add_zero, fl_intCast (by rw [abs_of_nonneg p3]; omega)]
  congr 2
  have := inner_eq steep (fl (((b.2 : ℚ) - a.2) / ((b.1 : ℚ) - a.1))) (b.1 - (a.1 + 1)).toNat (a.1 + 1) (a.2 : ℚ) 1 (by
    intro i hi
    have := (hbet (a.1 + 1 + i) (by omega) (by omega)).1
    rw [heightF, show (a.1 + 1 + (i : Int) - a.1).toNat = 1 + i by omega] at this
    exact_mod_cast this)
  rw [show ordinate (fl (((b.2 : ℚ) - a.2) / ((b.1 : ℚ) - a.1))) (a.2 : ℚ) 1 = fl ((a.2 : ℚ) + fl (((b.2 : ℚ) - a.2) / ((b.1 : ℚ) - a.1))) from rfl] at this
  rw [this, intRange, List.flatMap_map]
  congr 1
  funext i
  rw [heightF, show (a.1 + 1 + (i : Int) - a.1).toNat = 1 + i by omega]

end

/-! ### What is left on the canvas -/

/-- The weight which an inner column gives to row `Y`. -/
def near (y : ℚ) (Y : Int) : ℚ := if Y = ⌊y⌋ then fl (1 - Int.fract y) else if Y = ⌊y⌋ + 1 then Int.fract y else 0

theorem near_close (y : ℚ) (Y : Int) : 0 ≤ near y Y ∧ near y Y ≤ 1 ∧ |near y Y - hat ((Y : ℚ) - y)| ≤ 2 ^ (-52 : ℤ) := by
  have f0 := Int.fract_nonneg y
  have f1 := Int.fract_lt_one y
  have p := (two_zpow_pos (-52)).le
  unfold near
  split
  · rename_i e
    rw [e, hat_floor]
    refine ⟨le_fl double_zero (by linarith), fl_le (by simpa using double_int (n := 1) (by norm_num)) (by linarith), err_small ?_⟩
    rw [abs_of_nonneg (by linarith)]
    linarith
  · split
    · rename_i e1 e2
      rw [e2, hat_ceil, sub_self, abs_zero]
      exact ⟨f0, f1.le, p⟩
    · rename_i e1 e2
      rw [hat_far e1 e2, sub_self, abs_zero]
      exact ⟨le_rfl, zero_le_one, p⟩

theorem hat_lipschitz (d e : ℚ) : |hat d - hat e| ≤ |d - e| := by
  unfold hat
  rw [max_comm 0, max_comm 0]
  refine le_trans (abs_max_sub_max_le_abs _ _ _) ?_
  rw [show 1 - |d| - (1 - |e|) = |e| - |d| by ring, abs_sub_comm d e]
  exact abs_abs_sub_abs_le_abs_sub e d

theorem near_cell {V : Type} (ap : V → ℚ → V) (h0 : ∀ v, ap v 0 = v) (v : V) (flip : Bool) (c : Int) (y : ℚ) (X Y : Int) :
    cellAfter ap v (nearPixels flip c y) (pixelAt flip X Y) = if X = c then ap v (near y Y) else v := by
  simp only [nearPixels, cellAfter_cons, cellAfter_nil]
  simp only [pixelAt_inj]
  by_cases hX : X = c
  · subst hX
    simp only [true_and, if_true, near]
    by_cases h1 : ⌊y⌋ = Y
    · subst h1
      rw [if_pos rfl, if_neg (by omega), if_pos rfl]
    · rw [if_neg h1, if_neg (Ne.symm h1)]
      by_cases h2 : ⌊y⌋ + 1 = Y
      · subst h2
        rw [if_pos rfl, if_pos rfl]
      · rw [if_neg h2, if_neg (Ne.symm h2), h0]
  · rw [if_neg hX, if_neg (fun h => hX h.1.symm), if_neg (fun h => hX h.1.symm)]

theorem inner_cell {V : Type} (ap : V → ℚ → V) (h0 : ∀ v, ap v 0 = v) (v : V) (flip : Bool) (f : Int → ℚ) (cs : List Int) (hn : cs.Nodup) (X Y : Int) :
    cellAfter ap v (cs.flatMap fun x => nearPixels flip x (f x)) (pixelAt flip X Y) = if X ∈ cs then ap v (near (f X) Y) else v := by
  induction cs generalizing v with
  | nil => rfl
  | cons c cs ih =>
    rw [List.nodup_cons] at hn
    rw [List.flatMap_cons, cellAfter_append, near_cell ap h0, ih _ hn.2]
    by_cases hX : X = c
    · subst hX
      rw [if_neg hn.1, if_pos rfl, if_pos (List.mem_cons_self ..)]
    · rw [if_neg hX]
      simp only [List.mem_cons, hX, false_or]

/-- The weight which the rounded line gives to the pixel in column `X` and row `Y`. -/
def weightF (a b : Int × Int) (X Y : Int) : ℚ :=
  if X = a.1 then hat ((Y : ℚ) - a.2) * (1 / 2) else if X = b.1 then hat ((Y : ℚ) - b.2) * (1 / 2)
  else if a.1 < X ∧ X < b.1 then near (heightF a b X) Y else 0

section
variable {a b : Int × Int} (ha : Small a) (hb : Small b) (h : a.1 < b.1) (hs : |b.2 - a.2| ≤ b.1 - a.1)
include ha hb h hs

theorem draw_cell {V : Type} (ap : V → ℚ → V) (h0 : ∀ v, ap v 0 = v) (steep : Bool) {ws : List ((Int × Int) × ℚ)}
    (hw : aaDraw steep (ptOf a) (ptOf b) = .ok ws) (v : V) (X Y : Int) : cellAfter ap v ws (pixelAt steep X Y) = ap v (weightF a b X Y) := by
  rw [draw_eq ha hb h hs steep] at hw
  cases hw
  rw [cellAfter_append, cellAfter_append, twoPixels_cell ap h0, twoPixels_cell ap h0, inner_cell ap h0 _ _ _ _ (nodup_intRange _ _), weightF]
  simp only [mem_intRange]
  by_cases e1 : X = a.1
  · subst e1
    rw [if_neg (by omega), if_neg (by omega), if_pos rfl, if_pos rfl]
  · by_cases e2 : X = b.1
    · subst e2
      rw [if_neg (by omega), if_pos rfl, if_neg e1, if_neg e1, if_pos rfl]
    · rw [if_neg e2, if_neg e1, if_neg e1, if_neg e2]
      by_cases e3 : a.1 < X ∧ X < b.1
      · rw [if_pos (by omega), if_pos e3]
      · rw [if_neg (by omega), if_neg e3, h0]

theorem hat_range (d : ℚ) : 0 ≤ hat d ∧ hat d ≤ 1 := by
  unfold hat
  exact ⟨le_max_left _ _, max_le zero_le_one (by linarith [abs_nonneg d])⟩

theorem weightF_close (X Y : Int) : 0 ≤ weightF a b X Y ∧ weightF a b X Y ≤ 1 ∧ |weightF a b X Y - flatWeight a b X Y| ≤ 2 ^ (-18 : ℤ) := by
  have p := (two_zpow_pos (-18)).le
  have hlt : (ptOf a : ℚ × ℚ).1 < (ptOf b : ℚ × ℚ).1 := by simp only [ptOf]; exact_mod_cast h
  have r1 := hat_range ha hb h hs ((Y : ℚ) - a.2)
  have r2 := hat_range ha hb h hs ((Y : ℚ) - b.2)
  unfold weightF flatWeight
  rw [min_eq_left h.le, max_eq_right h.le]
  by_cases e1 : X = a.1
  · subst e1
    rw [if_pos rfl, if_pos ⟨le_rfl, h.le⟩, if_pos (Or.inl rfl), show heightAt ((a.1 : ℚ), (a.2 : ℚ)) ((b.1 : ℚ), (b.2 : ℚ)) (a.1 : ℚ) = a.2 by simp [heightAt]]
    refine ⟨by linarith, by linarith, ?_⟩
    rw [hat, sub_self, abs_zero]
    exact p
  · by_cases e2 : X = b.1
    · subst e2
      have e := heightAt_far hlt (b.1 : ℚ)
      simp only [ptOf] at e
      rw [if_neg e1, if_pos rfl, if_pos ⟨h.le, le_rfl⟩, if_pos (Or.inr rfl), e, sub_self, mul_zero, add_zero]
      refine ⟨by linarith, by linarith, ?_⟩
      rw [hat, sub_self, abs_zero]
      exact p
    · rw [if_neg e1, if_neg e2]
      by_cases e3 : a.1 < X ∧ X < b.1
      · rw [if_pos e3, if_pos ⟨e3.1.le, e3.2.le⟩, if_neg (by tauto), mul_one]
        obtain ⟨n1, n2, n3⟩ := near_close (heightF a b X) Y
        refine ⟨n1, n2, ?_⟩
        have c := heightF_close ha hb h hs e3.1.le e3.2.le
        have l := hat_lipschitz ((Y : ℚ) - heightF a b X) ((Y : ℚ) - heightAt (ptOf a : ℚ × ℚ) (ptOf b) X)
        rw [sub_sub_sub_cancel_left, abs_sub_comm (heightAt _ _ _)] at l
        change |near (heightF a b X) Y - hat ((Y : ℚ) - heightAt (ptOf a : ℚ × ℚ) (ptOf b) X)| ≤ _
        have t := abs_sub_le (near (heightF a b X) Y) (hat ((Y : ℚ) - heightF a b X)) (hat ((Y : ℚ) - heightAt (ptOf a : ℚ × ℚ) (ptOf b) X))
        refine le_trans t (le_trans (add_le_add n3 (l.trans c)) ?_)
        norm_num
      · rw [if_neg e3, if_neg (by omega), sub_self, abs_zero]
        exact ⟨le_rfl, zero_le_one, p⟩

theorem near_mem {flip : Bool} {c lo hi : Int} {y : ℚ} {P : Prop} (hy : (lo : ℚ) ≤ y ∧ (y < hi ∨ (y = hi ∧ P))) {z : (Int × Int) × ℚ}
    (hz : z ∈ nearPixels flip c y) : ∃ r, z.1 = pixelAt flip c r ∧ lo ≤ r ∧ r ≤ hi + 1 ∧ (0 ≤ z.2 ∧ z.2 ≤ 1) ∧ (r = hi + 1 → z.2 = 0 ∧ P) := by
  have f0 := Int.fract_nonneg y
  have f1 := (Int.fract_lt_one y).le
  have l : lo ≤ ⌊y⌋ := Int.le_floor.mpr hy.1
  have u : ⌊y⌋ ≤ hi := by
    have : (⌊y⌋ : ℚ) ≤ hi := le_trans (Int.floor_le y) (hy.2.elim le_of_lt fun e => e.1.le)
    exact_mod_cast this
  simp only [nearPixels, List.mem_cons, List.not_mem_nil, or_false] at hz
  rcases hz with rfl | rfl
  · refine ⟨⌊y⌋, rfl, l, by omega, ⟨le_fl double_zero (by linarith), fl_le (by simpa using double_int (n := 1) (by norm_num)) (by linarith)⟩, by omega⟩
  · refine ⟨⌊y⌋ + 1, rfl, by omega, by omega, ⟨f0, f1⟩, fun hr => ?_⟩
    rcases hy.2 with hh | hh
    · have : ⌊y⌋ < hi := Int.floor_lt.mpr hh
      omega
    · refine ⟨?_, hh.2⟩
      dsimp only
      rw [hh.1, Int.fract_intCast]

theorem draw_mem (steep : Bool) {hi : Int} (ma : a.2 ≤ hi) (mb : b.2 ≤ hi) {ws : List ((Int × Int) × ℚ)} (hw : aaDraw steep (ptOf a) (ptOf b) = .ok ws) :
    ∀ z ∈ ws, ∃ c r, z.1 = pixelAt steep c r ∧ a.1 ≤ c ∧ c ≤ b.1 ∧ 0 ≤ r ∧ r ≤ hi + 1 ∧ (0 ≤ z.2 ∧ z.2 ≤ 1) ∧
      (r = hi + 1 → z.2 = 0 ∧ (c = b.1 → b.2 = hi)) := by
  rw [draw_eq ha hb h hs steep] at hw
  cases hw
  have half : (0 : ℚ) ≤ 1 / 2 ∧ (1 / 2 : ℚ) ≤ 1 := by constructor <;> norm_num
  intro z hz
  simp only [List.mem_append, List.mem_flatMap, mem_intRange] at hz
  rcases hz with (hz | hz) | ⟨c, hc, hz⟩
  · obtain ⟨r, e, h1, h2, h3, h4⟩ := twoPixels_mem (lo := 0) (hi := hi) ⟨by exact_mod_cast ha.2.1, by exact_mod_cast ma⟩ half hz
    exact ⟨_, r, e, le_rfl, h.le, h1, h2, h3, fun hr => ⟨(h4 hr).1, fun e => absurd e h.ne⟩⟩
  · obtain ⟨r, e, h1, h2, h3, h4⟩ := twoPixels_mem (lo := 0) (hi := hi) ⟨by exact_mod_cast hb.2.1, by exact_mod_cast mb⟩ half hz
    exact ⟨_, r, e, h.le, le_rfl, h1, h2, h3, fun hr => ⟨(h4 hr).1, fun _ => by exact_mod_cast (h4 hr).2⟩⟩
  · obtain ⟨r, e, h1, h2, h3, h4⟩ := near_mem ha hb h hs (heightF_between ha hb h hs ha.2.1 hb.2.1 ma mb (by omega : a.1 < c) hc.2) hz
    exact ⟨_, r, e, by omega, by omega, h1, h2, h3, fun hr => ⟨(h4 hr).1, fun _ => (h4 hr).2⟩⟩

end

theorem small_flip {a : Int × Int} (h : Small a) : Small (a.2, a.1) := ⟨h.2, h.1⟩

theorem abs_fl_lt {a b c d : Int} (h1 : |b - a| ≤ 2 ^ 53) (h2 : |d - c| ≤ 2 ^ 53) : |fl ((b : ℚ) - a)| > |fl ((d : ℚ) - c)| ↔ |b - a| > |d - c| := by
  have e1 := fl_intCast h1
  have e2 := fl_intCast h2
  push_cast at e1 e2
  rw [e1, e2]
  exact abs_int_lt

theorem small_diff {a b : Int} (ha : 0 ≤ a ∧ a < 2 ^ 16) (hb : 0 ≤ b ∧ b < 2 ^ 16) : |b - a| ≤ 2 ^ 53 := by
  rw [abs_le]
  constructor <;> omega

/-- The assignments of a line between two different pixels: where they are, and what they leave. -/
theorem line_int {a b : Int × Int} (ha : Small a) (hb : Small b) (hne : a ≠ b) {w h : Nat} (hab : LineFits w h a b) :
    ∃ ws, aaline (ptOf a) (ptOf b) = .ok ws ∧ (∀ z ∈ ws, AlmostOn w h z ∧ 0 ≤ z.2 ∧ z.2 ≤ 1) ∧
      ∀ X Y, ∃ α : ℚ, (0 ≤ α ∧ α ≤ 1 ∧ |α - lineWeight a b X Y| ≤ 2 ^ (-18 : ℤ)) ∧
        ∀ (V : Type) (ap : V → ℚ → V), (∀ v, ap v 0 = v) → ∀ v, cellAfter ap v ws (X, Y) = ap v α := by
  obtain ⟨⟨a1, a2, a3, a4⟩, ⟨b1, b2, b3, b4⟩, hflat, hsteep⟩ := hab
  -- one of the two orders
  have flat : ∀ p q : Int × Int, Small p → Small q → p.1 < q.1 → |q.2 - p.2| ≤ q.1 - p.1 → (0 ≤ p.1 ∧ p.1 < w ∧ 0 ≤ p.2 ∧ p.2 + 1 < h) →
      (0 ≤ q.1 ∧ q.1 < w ∧ 0 ≤ q.2 ∧ q.2 + 1 < h) →
      ∃ ws, aaDraw false (ptOf p) (ptOf q) = .ok ws ∧ (∀ z ∈ ws, AlmostOn w h z ∧ 0 ≤ z.2 ∧ z.2 ≤ 1) ∧
      ∀ X Y, ∃ α : ℚ, (0 ≤ α ∧ α ≤ 1 ∧ |α - flatWeight p q X Y| ≤ 2 ^ (-18 : ℤ)) ∧
        ∀ (V : Type) (ap : V → ℚ → V), (∀ v, ap v 0 = v) → ∀ v, cellAfter ap v ws (X, Y) = ap v α := by
    intro p q sp sq hlt hd hp hq
    have hw := draw_eq sp sq hlt hd false
    refine ⟨_, hw, ?_, ?_⟩
    · intro z hz
      obtain ⟨c, r, e, h1, h2, h3, h4, h5, h6⟩ := draw_mem sp sq hlt hd false (hi := (h : Int) - 2) (by omega) (by omega) hw z hz
      refine ⟨.inl ?_, h5⟩
      rw [e]
      refine ⟨?_, ?_, ?_, ?_⟩ <;> simp only [pixelAt, Bool.false_eq_true, if_false] <;> omega
    · intro X Y
      refine ⟨_, weightF_close sp sq hlt hd X Y, fun V ap h0 v => ?_⟩
      exact draw_cell sp sq hlt hd ap h0 false hw v X Y
  have steep : ∀ p q : Int × Int, Small p → Small q → p.1 < q.1 → |q.2 - p.2| ≤ q.1 - p.1 → (0 ≤ p.1 ∧ p.1 < h ∧ 0 ≤ p.2 ∧ p.2 < w) →
      (0 ≤ q.1 ∧ q.1 < h ∧ 0 ≤ q.2 ∧ q.2 < w ∧ ¬ (q.1 + 1 = h ∧ q.2 + 1 = w)) →
      ∃ ws, aaDraw true (ptOf p) (ptOf q) = .ok ws ∧ (∀ z ∈ ws, AlmostOn w h z ∧ 0 ≤ z.2 ∧ z.2 ≤ 1) ∧
      ∀ X Y, ∃ α : ℚ, (0 ≤ α ∧ α ≤ 1 ∧ |α - flatWeight p q Y X| ≤ 2 ^ (-18 : ℤ)) ∧
        ∀ (V : Type) (ap : V → ℚ → V), (∀ v, ap v 0 = v) → ∀ v, cellAfter ap v ws (X, Y) = ap v α := by
    intro p q sp sq hlt hd hp hq
    have hw := draw_eq sp sq hlt hd true
    refine ⟨_, hw, ?_, ?_⟩
    · intro z hz
      obtain ⟨c, r, e, h1, h2, h3, h4, h5, h6⟩ := draw_mem sp sq hlt hd true (hi := (w : Int) - 1) (by omega) (by omega) hw z hz
      refine ⟨?_, h5⟩
      by_cases hr : r = (w : Int) - 1 + 1
      · obtain ⟨z0, hc⟩ := h6 hr
        refine .inr ⟨?_, ?_, ?_, z0⟩ <;> rw [e] <;> simp only [pixelAt, if_true]
        · omega
        · omega
        · by_cases hcb : c = q.1
          · have := hc hcb
            omega
          · omega
      · refine .inl ?_
        rw [e]
        refine ⟨?_, ?_, ?_, ?_⟩ <;> simp only [pixelAt, if_true] <;> omega
    · intro X Y
      refine ⟨_, weightF_close sp sq hlt hd Y X, fun V ap h0 v => ?_⟩
      exact draw_cell sp sq hlt hd ap h0 true hw v Y X
  by_cases hs : |b.2 - a.2| > |b.1 - a.1|
  · have hsK : |fl ((ptOf b : ℚ × ℚ).2 - (ptOf a : ℚ × ℚ).2)| > |fl ((ptOf b : ℚ × ℚ).1 - (ptOf a : ℚ × ℚ).1)| :=
      (abs_fl_lt (small_diff ha.2 hb.2) (small_diff ha.1 hb.1)).mpr hs
    have hne2 : a.2 ≠ b.2 := by
      intro e
      rw [e, sub_self, abs_zero] at hs
      exact absurd hs (not_lt.mpr (abs_nonneg _))
    simp only [aaline, hsK, decide_true, if_true]
    simp only [lineWeight, if_pos hs]
    rcases lt_or_gt_of_ne hne2 with hlt | hlt
    · rw [if_neg (by simp only [ptOf]; exact not_lt.mpr (by exact_mod_cast hlt.le))]
      exact steep (a.2, a.1) (b.2, b.1) (small_flip ha) (small_flip hb) hlt (by rw [abs_of_pos (by omega)] at hs; dsimp only; omega) ⟨a3, a4, a1, a2⟩
        ⟨b3, b4, b1, b2, fun e => (hsteep hs).2 ⟨e.2, e.1⟩⟩
    · rw [if_pos (by simp only [ptOf]; exact_mod_cast hlt)]
      obtain ⟨ws, e1, e2, e3⟩ := steep (b.2, b.1) (a.2, a.1) (small_flip hb) (small_flip ha) hlt
        (by rw [abs_of_neg (by omega), abs_sub_comm] at hs; dsimp only; omega) ⟨b3, b4, b1, b2⟩ ⟨a3, a4, a1, a2, fun e => (hsteep hs).1 ⟨e.2, e.1⟩⟩
      refine ⟨ws, e1, e2, fun X Y => ?_⟩
      rw [flatWeight_comm (by exact hlt.ne')]
      exact e3 X Y
  · have hsK : ¬ |fl ((ptOf b : ℚ × ℚ).2 - (ptOf a : ℚ × ℚ).2)| > |fl ((ptOf b : ℚ × ℚ).1 - (ptOf a : ℚ × ℚ).1)| := fun e =>
      hs ((abs_fl_lt (small_diff ha.2 hb.2) (small_diff ha.1 hb.1)).mp e)
    have hne1 : a.1 ≠ b.1 := by
      intro e
      rw [e, sub_self, abs_zero, not_lt] at hs
      exact hne (Prod.ext e (sub_eq_zero.mp (abs_eq_zero.mp (le_antisymm hs (abs_nonneg _)))).symm)
    simp only [aaline, hsK, decide_false, Bool.false_eq_true, if_false]
    simp only [lineWeight, if_neg hs]
    rcases lt_or_gt_of_ne hne1 with hlt | hlt
    · rw [if_neg (by simp only [ptOf]; exact not_lt.mpr (by exact_mod_cast hlt.le))]
      exact flat a b ha hb hlt (by rw [abs_of_pos (by omega : 0 < b.1 - a.1)] at hs; omega) ⟨a1, a2, a3, (hflat hs).1⟩ ⟨b1, b2, b3, (hflat hs).2⟩
    · rw [if_pos (by simp only [ptOf]; exact_mod_cast hlt)]
      obtain ⟨ws, e1, e2, e3⟩ := flat b a hb ha hlt (by rw [abs_of_neg (by omega : b.1 - a.1 < 0), abs_sub_comm] at hs; omega) ⟨b1, b2, b3, (hflat hs).2⟩
        ⟨a1, a2, a3, (hflat hs).1⟩
      refine ⟨ws, e1, e2, fun X Y => ?_⟩
      rw [flatWeight_comm hlt.ne']
      exact e3 X Y

/-! ### On a gray canvas -/

/-- Blending over a byte; larger numbers do not occur. -/
def over (fg : Nat) (v : Nat) (α : ℚ) : Nat := if v ≤ 255 then (blend v fg α).toNat else v

theorem over_zero {fg : Nat} (hf : fg ≤ 255) (v : Nat) : over fg v 0 = v := by
  unfold over
  split
  · rename_i hv
    rw [(C153_blend_double_ends v fg hv hf).1]
    rfl
  · rfl

theorem set_spec {c : Gray} (hc : c.WF) {fg : Nat} (hf : fg ≤ 255) {x y : Int} (hxy : OnCanvas c.width c.height x y) {α : ℚ} (h0 : 0 ≤ α) (h1 : α ≤ 1) :
    ∃ c', graySet fg c x y α = .ok c' ∧ c'.WF ∧ c'.width = c.width ∧ c'.height = c.height ∧
      (∀ u, c.get x y = .ok u → c'.get x y = .ok (over fg u α)) ∧
      ∀ x' y', OnCanvas c.width c.height x' y' → (x', y') ≠ (x, y) → c'.get x' y' = c.get x' y' := by
  obtain ⟨a, b, rfl, rfl, hx, hy⟩ := onCanvas_nat hxy
  have hi := gray_idx hc hx hy
  have hb := hc.byte _ (List.getElem_mem hi)
  have hv : c.data[b * c.width + a]'hi ≤ 255 := by omega
  have e : (b : Int) * c.width + a = ((b * c.width + a : Nat) : Int) := by push_cast; ring
  obtain ⟨k1, k2, -⟩ := C153_blend_double_between _ fg α hv hf h0 h1
  have hn : ((over fg (c.data[b * c.width + a]'hi) α : Nat) : Int) = blend (c.data[b * c.width + a]'hi : Nat) fg α := by
    rw [over, if_pos hv, Int.toNat_of_nonneg (by omega)]
  have hlt : over fg (c.data[b * c.width + a]'hi) α < 256 := by omega
  have hset : graySet fg c a b α = .ok ⟨c.width, c.height, c.data.set (b * c.width + a) (over fg (c.data[b * c.width + a]'hi) α)⟩ := by
    simp only [graySet, e, pyIndex_nat _ _ _ (List.getElem?_eq_getElem hi), bind, Except.bind]
    rw [← hn]
    simp only [byteOf_nat hlt, pySetItem_nat _ _ _ hi]
    rfl
  have hwf : (Gray.mk c.width c.height (c.data.set (b * c.width + a) (over fg (c.data[b * c.width + a]'hi) α))).WF := by
    constructor
    · simpa using hc.len
    · intro q hq
      rcases List.mem_or_eq_of_mem_set hq with h | h
      · exact hc.byte q h
      · rw [h]; exact hlt
  refine ⟨_, hset, hwf, rfl, rfl, ?_, ?_⟩
  · intro u hu
    rw [gray_get hc hx hy] at hu
    injection hu with hu
    rw [gray_get hwf hx hy]
    simp only [List.getElem_set_self, hu]
  · intro x' y' hc' hne
    obtain ⟨a', b', rfl, rfl, hx', hy'⟩ := onCanvas_nat hc'
    rw [gray_get hwf hx' hy', gray_get hc hx' hy']
    simp only [List.getElem_set]
    split
    · rename_i heq
      obtain ⟨h1, h2⟩ := idx_inj hx hx' heq
      exact absurd (by rw [h1, h2]) hne
    · rfl

theorem writes_spec {c : Gray} (hc : c.WF) {fg : Nat} (hf : fg ≤ 255) (ws : List ((Int × Int) × ℚ))
    (hws : ∀ w ∈ ws, OnCanvas c.width c.height w.1.1 w.1.2 ∧ 0 ≤ w.2 ∧ w.2 ≤ 1) :
    ∃ c', ws.foldlM (fun c w => graySet fg c w.1.1 w.1.2 w.2) c = .ok c' ∧ c'.WF ∧ c'.width = c.width ∧ c'.height = c.height ∧
      ∀ x y v, OnCanvas c.width c.height x y → c.get x y = .ok v → c'.get x y = .ok (cellAfter (over fg) v ws (x, y)) := by
  induction ws generalizing c with
  | nil => exact ⟨c, rfl, hc, rfl, rfl, fun x y v _ h => h⟩
  | cons w ws ih =>
    obtain ⟨⟨a, b⟩, v⟩ := w
    have h0 := hws ((a, b), v) (by simp)
    obtain ⟨c1, h1, hw1, e1, e2, hself, hother⟩ := set_spec hc hf h0.1 h0.2.1 h0.2.2
    obtain ⟨c2, h2, hw2, e3, e4, hr⟩ := ih hw1 (fun w hw => by rw [e1, e2]; exact hws w (by simp [hw]))
    refine ⟨c2, ?_, hw2, e3.trans e1, e4.trans e2, ?_⟩
    · simp only [List.foldlM_cons, h1, bind, Except.bind]
      exact h2
    · intro x y u hon hu
      rw [cellAfter_cons]
      split
      · rename_i heq
        simp only [Prod.mk.injEq] at heq
        obtain ⟨rfl, rfl⟩ := heq
        exact hr _ _ _ (by rw [e1, e2]; exact hon) (hself u hu)
      · rename_i hne
        apply hr _ _ _ (by rw [e1, e2]; exact hon)
        rw [hother x y hon (fun e => hne e.symm)]
        exact hu

theorem set_wrap {c : Gray} {w : Nat} (hc : c.width = w) {fg : ℚ} (ws : List ((Int × Int) × ℚ)) :
    ws.foldlM (fun c w => graySet fg c w.1.1 w.1.2 w.2) c = (ws.map fun z => (wrapPix w z.1, z.2)).foldlM (fun c w => graySet fg c w.1.1 w.1.2 w.2) c := by
  induction ws generalizing c with
  | nil => rfl
  | cons z ws ih =>
    have hset : graySet fg c z.1.1 z.1.2 z.2 = graySet fg c (wrapPix w z.1).1 (wrapPix w z.1).2 z.2 := by
      unfold wrapPix
      split
      · rename_i hz
        unfold graySet
        have : z.1.2 * (c.width : Int) + z.1.1 = (z.1.2 + 1) * (c.width : Int) + 0 := by
          rw [hz, hc]
          ring
        simp only [this]
      · rfl
    rw [List.map_cons, List.foldlM_cons, List.foldlM_cons, hset]
    cases hs : graySet fg c (wrapPix w z.1).1 (wrapPix w z.1).2 z.2 with
    | error e => rfl
    | ok c1 =>
      have hc1 : c1.width = w := by
        obtain ⟨_, _, hs⟩ := Py.bind_ok.mp hs
        obtain ⟨_, _, hs⟩ := Py.bind_ok.mp hs
        obtain ⟨_, _, hs⟩ := Py.bind_ok.mp hs
        cases hs
        exact hc
      exact ih hc1

/-! ### C166 -/

/-- The total weight which the assignments give to a pixel. -/
def given (ws : List ((Int × Int) × ℚ)) (x y : Int) : ℚ := ((ws.filter fun w => decide (w.1 = (x, y))).map Prod.snd).sum

theorem given_eq (ws : List ((Int × Int) × ℚ)) (x y : Int) (v : ℚ) : cellAfter (fun v a : ℚ => v + a) v ws (x, y) = v + given ws x y := by
  unfold cellAfter given
  generalize ws.filter _ = l
  induction l generalizing v with
  | nil => simp
  | cons a l ih => rw [List.foldl_cons, ih, List.map_cons, List.sum_cons, add_assoc]

/-- C166: for any two different pixels with coordinates below 65536, the anti-aliased line between them computed with floats gives every pixel its weight in the line to
within 2⁻¹⁸, whatever the length of the line, and all alphas are from 0 to 1. -/
theorem C166_weights (a b : Int × Int) (ha : Small a) (hb : Small b) (hne : a ≠ b) :
    ∃ ws, aaline (ptOf a) (ptOf b) = .ok ws ∧ (∀ w ∈ ws, 0 ≤ w.2 ∧ w.2 ≤ 1) ∧ ∀ x y, |given ws x y - lineWeight a b x y| ≤ 2 ^ (-18 : ℤ) := by
  obtain ⟨⟨a1, a2⟩, a3, a4⟩ := ha
  obtain ⟨⟨b1, b2⟩, b3, b4⟩ := hb
  obtain ⟨ws, h1, h2, h3⟩ := line_int ⟨⟨a1, a2⟩, a3, a4⟩ ⟨⟨b1, b2⟩, b3, b4⟩ hne (w := 2 ^ 16 + 1) (h := 2 ^ 16 + 1)
    ⟨⟨a1, by push_cast; omega, a3, by push_cast; omega⟩, ⟨b1, by push_cast; omega, b3, by push_cast; omega⟩,
      fun _ => ⟨by push_cast; omega, by push_cast; omega⟩, fun _ => ⟨by push_cast; omega, by push_cast; omega⟩⟩
  refine ⟨ws, h1, fun w hw => (h2 w hw).2, fun x y => ?_⟩
  obtain ⟨α, ⟨-, -, h4⟩, h5⟩ := h3 x y
  have := h5 ℚ (fun v a => v + a) (fun v => add_zero v) 0
  rw [given_eq, zero_add, zero_add] at this
  rwa [this]

/-- C166: on a gray canvas every pixel ends within 1/2 + 2⁻⁹ gray levels of the exact mix of its value and the colour by its weight in the line, and between the two.
Lines that do not fit raise (C111). -/
theorem C166_gray (c : Gray) (hc : c.WF) (a b : Int × Int) (ha : Small a) (hb : Small b) (hne : a ≠ b) (hab : LineFits c.width c.height a b) (fg : Nat) (hf : fg ≤ 255) :
    ∃ c', grayAaline c (ptOf a) (ptOf b) fg = .ok c' ∧ ∀ x y, OnCanvas c.width c.height x y → ∃ v v' : Nat, c.get x y = .ok v ∧ c'.get x y = .ok v' ∧
      min v fg ≤ v' ∧ v' ≤ max v fg ∧ |(v' : ℚ) - (v + (fg - v) * lineWeight a b x y)| ≤ 1 / 2 + 2 ^ (-9 : ℤ) := by
  obtain ⟨ws, e1, e2, e3⟩ := line_int ha hb hne hab
  have hwpos : 0 < c.width := by have := hab.1; unfold OnCanvas at this; omega
  obtain ⟨c', h1, h2, h3, h4, h5⟩ := writes_spec hc hf (ws.map fun z => (wrapPix c.width z.1, z.2)) (by
    intro z hz
    rw [List.mem_map] at hz
    obtain ⟨z, hz, rfl⟩ := hz
    exact ⟨wrapPix_on (e2 z hz).1 hwpos, (e2 z hz).2⟩)
  refine ⟨c', ?_, fun x y hxy => ?_⟩
  · rw [grayAaline, e1]
    change ws.foldlM _ c = _
    rw [set_wrap rfl, h1]
  · obtain ⟨i, j, rfl, rfl, hx, hy⟩ := onCanvas_nat hxy
    have hv : c.data[j * c.width + i]'(gray_idx hc hx hy) ≤ 255 := by
      have := hc.byte _ (List.getElem_mem (gray_idx hc hx hy))
      omega
    obtain ⟨α, ⟨k0, k1, k2⟩, k3⟩ := e3 i j
    refine ⟨_, _, gray_get hc hx hy, h5 _ _ _ hxy (gray_get hc hx hy), ?_⟩
    rw [wrap_cell _ (over_zero hf) ws (fun z hz => (e2 z hz).1) hxy.2.1, k3 Nat _ (over_zero hf)]
    generalize c.data[j * c.width + i]'(gray_idx hc hx hy) = v at hv ⊢
    obtain ⟨m1, m2, m3⟩ := C153_blend_double_between v fg α hv hf k0 k1
    have hn : ((over fg v α : Nat) : Int) = blend v fg α := by
      rw [over, if_pos hv, Int.toNat_of_nonneg (by omega)]
    rw [← hn] at m1 m2 m3
    refine ⟨by omega, by omega, ?_⟩
    generalize over fg v α = v' at *
    generalize (lineWeight a b (i : Int) (j : Int) : ℚ) = wt at *
    have hd : |((fg : ℚ) - v) * (α - wt)| ≤ 255 * 2 ^ (-18 : ℤ) := by
      rw [abs_mul]
      refine mul_le_mul ?_ k2 (abs_nonneg _) (by norm_num)
      have f1 : (fg : ℚ) ≤ 255 := by exact_mod_cast hf
      have f2 : (v : ℚ) ≤ 255 := by exact_mod_cast hv
      have f3 : (0 : ℚ) ≤ fg := by positivity
      have f4 : (0 : ℚ) ≤ v := by positivity
      rw [abs_le]
      constructor <;> linarith
    push_cast at m3
    rw [show (v' : ℚ) - (v + (fg - v) * wt) = (v' - ((1 - α) * v + α * fg)) + (fg - v) * (α - wt) by ring]
    refine le_trans (abs_add_le _ _) (le_trans (add_le_add m3 hd) ?_)
    norm_num

/-- A case: in the middle of the line from (0, 0) to (20, 2) the running sum of tenths is a little below 1, so that pixel (10, 0) gets the tiny rest. -/
example : (aaline (ptOf (0, 0)) (ptOf (20, 2))).toOption.map (fun ws => (given ws 10 0, given ws 10 1)) = some (2 ^ (-53 : ℤ), 1 - 2 ^ (-53 : ℤ)) ∧
    lineWeight (K := ℚ) (0, 0) (20, 2) 10 0 = 0 ∧ lineWeight (K := ℚ) (0, 0) (20, 2) 10 1 = 1 := by
  decide +kernel

example : grayAaline (Gray.mk 5 3 (List.replicate 15 0)) (ptOf (0, 0)) (ptOf (3, 1)) 240 = .ok ⟨5, 3, [120, 160, 80, 0, 0, 0, 80, 160, 120, 0, 0, 0, 0, 0, 0]⟩ ∧
    LineFits 5 3 (0, 0) (3, 1) := by
  decide +kernel

example : Small (0, 0) ∧ Small (65535, 3) := by unfold Small; decide

end Flt
end Coral
