import Verif.Model.FloatsJ
import Verif.Props.FloatsH
import Verif.Props.Stats

/-!
# Inequality on floats (C175)
-/
namespace Coral
namespace Flt

open Stats (pairSum pairSum_zero pairSum_nonneg)
open Buffer (pyIndex_nat)

/-! ### Numbers that agree up to a factor -/

/-- Neither number is more than `g ^ k` times the other. -/
structure Rel (k : ℕ) (x y : ℚ) : Prop where
  left : 0 ≤ x
  right : 0 ≤ y
  le : x ≤ g ^ k * y
  ge : y ≤ g ^ k * x

theorem gp (k : ℕ) : 0 < g ^ k := pow_pos g_pos k
theorem gone (k : ℕ) : 1 ≤ g ^ k := one_le_pow₀ g_one

theorem Rel.refl {x : ℚ} (h : 0 ≤ x) : Rel 0 x x := ⟨h, h, by simp, by simp⟩

theorem Rel.trans {j k : ℕ} {x y z : ℚ} (h : Rel j x y) (h' : Rel k y z) : Rel (j + k) x z := by
  refine ⟨h.left, h'.right, ?_, ?_⟩
  · rw [pow_add, mul_assoc]
    exact h.le.trans (mul_le_mul_of_nonneg_left h'.le (gp j).le)
  · rw [add_comm, pow_add, mul_assoc]
    exact h'.ge.trans (mul_le_mul_of_nonneg_left h.ge (gp k).le)

theorem Rel.mono {j k : ℕ} {x y : ℚ} (h : Rel j x y) (hk : j ≤ k) : Rel k x y := by
  have : g ^ j ≤ g ^ k := pow_le_pow_right₀ g_one hk
  exact ⟨h.left, h.right, h.le.trans (mul_le_mul_of_nonneg_right this h.right), h.ge.trans (mul_le_mul_of_nonneg_right this h.left)⟩

theorem Rel.scale {k : ℕ} {x y c : ℚ} (h : Rel k x y) (hc : 0 ≤ c) : Rel k (c * x) (c * y) := by
  refine ⟨mul_nonneg hc h.left, mul_nonneg hc h.right, ?_, ?_⟩
  · rw [mul_left_comm]; exact mul_le_mul_of_nonneg_left h.le hc
  · rw [mul_left_comm]; exact mul_le_mul_of_nonneg_left h.ge hc

theorem Rel.zero {k : ℕ} {x y : ℚ} (h : Rel k x y) : x = 0 ↔ y = 0 := by
  constructor
  · intro e
    have := h.ge
    rw [e, mul_zero] at this
    exact le_antisymm this h.right
  · intro e
    have := h.le
    rw [e, mul_zero] at this
    exact le_antisymm this h.left

theorem Rel.div {j k : ℕ} {x y a b : ℚ} (h : Rel j x y) (h' : Rel k a b) : Rel (j + k) (x / a) (y / b) := by
  rcases h'.left.eq_or_lt with ha | ha
  · have hb := h'.zero.mp ha.symm
    rw [← ha, hb, div_zero, div_zero]
    exact ⟨le_rfl, le_rfl, by simp, by simp⟩
  have hb : 0 < b := lt_of_le_of_ne h'.right (fun e => ha.ne' (h'.zero.mpr e.symm))
  refine ⟨div_nonneg h.left ha.le, div_nonneg h.right hb.le, ?_, ?_⟩
  · rw [div_le_iff₀ ha, pow_add]
    calc x ≤ g ^ j * y := h.le
      _ = g ^ j * (y / b) * b := by field_simp
      _ ≤ g ^ j * (y / b) * (g ^ k * a) := mul_le_mul_of_nonneg_left h'.ge (mul_nonneg (gp j).le (div_nonneg h.right hb.le))
      _ = g ^ j * g ^ k * (y / b) * a := by ring
  · rw [div_le_iff₀ hb, pow_add]
    calc y ≤ g ^ j * x := h.ge
      _ = g ^ j * (x / a) * a := by field_simp
      _ ≤ g ^ j * (x / a) * (g ^ k * b) := mul_le_mul_of_nonneg_left h'.le (mul_nonneg (gp j).le (div_nonneg h.left ha.le))
      _ = g ^ j * g ^ k * (x / a) * b := by ring

theorem Rel.fl {x : ℚ} (h : 0 ≤ x) (hf : Far (-1000) x) : Rel 1 (fl x) x := by
  obtain ⟨h1, h2, h3⟩ := far_g hf
  have h3 := h3 h
  rw [abs_of_nonneg h3, abs_of_nonneg h] at h1
  rw [abs_of_nonneg h3, abs_of_nonneg h] at h2
  exact ⟨h3, h, by simpa using h1, by simpa using h2⟩

/-- A number close to one that is not tiny is not tiny. -/
theorem Rel.far {k : ℕ} {x y : ℚ} {e : ℤ} (h : Rel k x y) (hk : g ^ k ≤ 2) (hf : Far e y) : Far (e - 1) x := by
  rcases hf with hf | hf
  · exact Or.inl (h.zero.mpr hf)
  · right
    rw [abs_of_nonneg h.right] at hf
    rw [abs_of_nonneg h.left, zpow_sub₀ (by norm_num), zpow_one]
    have := h.ge
    have : g ^ k * x ≤ 2 * x := mul_le_mul_of_nonneg_right hk h.left
    linarith

theorem Rel.close {k : ℕ} {x y : ℚ} (h : Rel k x y) (hk : (k : ℚ) * 2 ^ (-51 : ℤ) ≤ 1) : |x - y| ≤ y * (k * 2 ^ (-51 : ℤ)) := by
  obtain ⟨h1, h2⟩ := g_pow hk
  have h3 : y / g ^ k ≤ x := by rw [div_le_iff₀ (gp k), mul_comm]; exact h.ge
  have h4 : y * (1 - k * 2 ^ (-51 : ℤ)) ≤ y / g ^ k := by
    rw [div_eq_mul_one_div]
    exact mul_le_mul_of_nonneg_left h2 h.right
  have h5 := h.le
  have h6 : g ^ k * y ≤ (1 + k * 2 ^ (-51 : ℤ)) * y := mul_le_mul_of_nonneg_right h1 h.right
  rw [abs_le]
  generalize (k : ℚ) * 2 ^ (-51 : ℤ) = e at *
  constructor <;> linarith

theorem sum_rel {k : ℕ} {l l' : List ℚ} (h : List.Forall₂ (Rel k) l l') : Rel k l.sum l'.sum := by
  induction h with
  | nil => exact ⟨le_rfl, le_rfl, by simp, by simp⟩
  | cons h h' ih =>
    simp only [List.sum_cons]
    refine ⟨add_nonneg h.left ih.left, add_nonneg h.right ih.right, ?_, ?_⟩
    · rw [mul_add]; exact add_le_add h.le ih.le
    · rw [mul_add]; exact add_le_add h.ge ih.ge

/-- Adding floats that are not negative from left to right. -/
theorem accum_rel {qs : List ℚ} (h : ∀ q ∈ qs, IsDouble q ∧ 0 ≤ q) {c : ℚ} (hc : IsDouble c) (h0 : 0 ≤ c) :
    Rel qs.length (qs.foldl (fun c q => fl (c + q)) c) (c + qs.sum) := by
  obtain ⟨h1, h2⟩ := accum_ge h hc h0
  have h3 := accum_le (fun q hq => (h q hq).1) hc
  have e : qs.map (|·|) = qs := by
    conv_rhs => rw [← List.map_id qs]
    exact List.map_congr_left (fun q hq => abs_of_nonneg (h q hq).2)
  rw [e, abs_of_nonneg h1, abs_of_nonneg h0] at h3
  exact ⟨h1, add_nonneg h0 (List.sum_nonneg (fun q hq => (h q hq).2)), h3, h2⟩

/-! ### `gini_kakwani` -/

/-- All pairs, in the order of the double loop. -/
def pairs : List ℚ → List (ℚ × ℚ)
  | [] => []
  | a :: l => l.map (fun b => (a, b)) ++ pairs l

theorem pairs_length (l : List ℚ) : 2 * (pairs l).length = l.length * (l.length - 1) := by
  induction l with
  | nil => rfl
  | cons a l ih =>
    simp only [pairs, List.length_append, List.length_map, List.length_cons, Nat.add_sub_cancel]
    rw [mul_add, ih]
    cases l with
    | nil => rfl
    | cons b l => simp only [List.length_cons, Nat.add_sub_cancel]; ring

theorem pairs_sum (l : List ℚ) : ((pairs l).map (fun p => |p.1 - p.2|)).sum = pairSum l := by
  induction l with
  | nil => rfl
  | cons a l ih => simp only [pairs, List.map_append, List.sum_append, ih, pairSum, List.map_map, Function.comp_def]

theorem pairs_mem {l : List ℚ} {p : ℚ × ℚ} (h : p ∈ pairs l) : p.1 ∈ l ∧ p.2 ∈ l := by
  induction l with
  | nil => simp [pairs] at h
  | cons a l ih =>
    rcases List.mem_append.mp h with h | h
    · obtain ⟨b, hb, rfl⟩ := List.mem_map.mp h
      exact ⟨by simp, by simp [hb]⟩
    · exact ⟨by simp [(ih h).1], by simp [(ih h).2]⟩

theorem generic_inner (F : ℚ → ℚ → ℚ → ℚ) (l : List ℚ) (a : ℚ) (i : Nat) (hi : l[i]? = some a) (j : Nat) (hj : j ≤ l.length) (s : ℚ) :
    (List.range' j (l.length - j)).foldlM (fun s (j : Nat) => do
      let a ← pyIndex l (i : Nat)
      let b ← pyIndex l (j : Nat)
      return F s a b) s = (.ok (((l.drop j).map (fun b => (a, b))).foldl (fun s p => F s p.1 p.2) s) : Py ℚ) := by
  have ea := pyIndex_nat l i _ hi
  induction hk : l.length - j generalizing j s with
  | zero =>
    have : l.drop j = [] := by rw [List.drop_eq_nil_iff]; omega
    simp [this]; rfl
  | succ k ih =>
    have hjl : j < l.length := by omega
    have eb := pyIndex_nat l j _ (List.getElem?_eq_getElem hjl)
    rw [List.range'_succ, List.foldlM_cons]
    simp only [ea, eb, bind, Except.bind, pure, Except.pure] at ih ⊢
    rw [ih (j + 1) (by omega) _ (by omega), List.drop_eq_getElem_cons hjl, List.map_cons, List.foldl_cons]

theorem generic_outer (F : ℚ → ℚ → ℚ → ℚ) (l : List ℚ) (i : Nat) (hi : i ≤ l.length) (s : ℚ) :
    (List.range' i (l.length - i)).foldlM (fun s i => (List.range' (i + 1) (l.length - (i + 1))).foldlM (fun s (j : Nat) => do
      let a ← pyIndex l (i : Nat)
      let b ← pyIndex l (j : Nat)
      return F s a b) s) s = (.ok ((pairs (l.drop i)).foldl (fun s p => F s p.1 p.2) s) : Py ℚ) := by
  induction hk : l.length - i generalizing i s with
  | zero =>
    have : l.drop i = [] := by rw [List.drop_eq_nil_iff]; omega
    simp [this, pairs]; rfl
  | succ k ih =>
    have hil : i < l.length := by omega
    rw [List.range'_succ, List.foldlM_cons, generic_inner F l _ i (List.getElem?_eq_getElem hil) (i + 1) (by omega)]
    simp only [bind, Except.bind]
    have := ih (i + 1) (by omega) (((l.drop (i + 1)).map (fun b => (l[i], b))).foldl (fun s p => F s p.1 p.2) s) (by omega)
    simp only [bind, Except.bind] at this
    rw [this, List.drop_eq_getElem_cons hil, pairs, List.foldl_append]

theorem kakwaniSum_ok (l : List ℚ) : kakwaniSum l = .ok ((pairs l).foldl (fun s p => fl (s + |fl (p.1 - p.2)|)) 0) := by
  have := generic_outer (fun s a b => fl (s + |fl (a - b)|)) l 0 (by omega) 0
  rw [Nat.sub_zero, ← List.range_eq_range', List.drop_zero] at this
  exact this

theorem double_abs {x : ℚ} (h : IsDouble x) : IsDouble |x| := by
  rcases abs_choice x with e | e <;> rw [e]
  · exact h
  · exact double_neg h

/-- The double loop computes the sum of all differences up to a factor. -/
theorem kakwaniSum_rel {l : List ℚ} (hd : ∀ x ∈ l, IsDouble x) : ∃ s, kakwaniSum l = .ok s ∧ IsDouble s ∧ Rel ((pairs l).length + 1) s (pairSum l) := by
  refine ⟨_, kakwaniSum_ok l, ?_, ?_⟩
  · rcases List.eq_nil_or_concat (pairs l) with h | ⟨q, p, h⟩
    · rw [h]; exact double_zero
    · rw [h, List.concat_eq_append, List.foldl_append]; exact fl_double _
  have e : (pairs l).foldl (fun s p => fl (s + |fl (p.1 - p.2)|)) 0 = ((pairs l).map (fun p => |fl (p.1 - p.2)|)).foldl (fun s q => fl (s + q)) 0 := by
    rw [List.foldl_map]
  rw [e]
  have h1 := accum_rel (qs := (pairs l).map (fun p => |fl (p.1 - p.2)|)) (by
    intro q hq
    obtain ⟨p, -, rfl⟩ := List.mem_map.mp hq
    exact ⟨double_abs (fl_double _), abs_nonneg _⟩) double_zero le_rfl
  rw [zero_add, List.length_map] at h1
  refine h1.trans ?_
  rw [← pairs_sum]
  apply sum_rel
  rw [List.forall₂_map_left_iff, List.forall₂_map_right_iff, List.forall₂_same]
  intro p hp
  obtain ⟨a1, a2⟩ := pairs_mem hp
  have := sum_g (hd _ a1) (double_neg (hd _ a2))
  rw [← sub_eq_add_neg] at this
  exact ⟨abs_nonneg _, abs_nonneg _, by simpa using this.1, by simpa using this.2.1⟩

/-- Incomes: at least two, not more than 2²⁵, none negative, not all zero; floats that are zero or at least 2⁻³⁰⁰. -/
structure Incomes (l : List ℚ) : Prop where
  two : 2 ≤ l.length
  many : l.length ≤ 2 ^ 25
  usual : ∀ x ∈ l, IsDouble x ∧ Far (-300) x
  nonneg : ∀ x ∈ l, 0 ≤ x
  some : 0 < l.sum

theorem Incomes.avg {l : List ℚ} (h : Incomes l) : ∃ u, avg l = .ok u ∧ IsDouble u ∧ 0 < u ∧ Rel 2 u (l.sum / l.length) ∧ 2 ^ (-326 : ℤ) ≤ u ∧ Rel 1 (fl l.sum) l.sum := by
  have hne : l ≠ [] := by intro e; have := h.two; simp [e] at this
  have hn : 0 < l.length := by have := h.two; omega
  have hn' : (0 : ℚ) < l.length := by exact_mod_cast hn
  have hN' : (l.length : ℚ) ≤ 2 ^ (25 : ℤ) := by exact_mod_cast h.many
  have hs : 2 ^ (-300 : ℤ) ≤ l.sum := by
    have hex : ∃ x ∈ l, x ≠ 0 := by
      by_contra hc
      push Not at hc
      have := List.sum_eq_zero hc
      have := h.some
      linarith
    obtain ⟨x, hx, h0⟩ := hex
    have h1 : 2 ^ (-300 : ℤ) ≤ x := by
      rcases (h.usual x hx).2 with e | e
      · exact absurd e h0
      · rwa [abs_of_nonneg (h.nonneg x hx)] at e
    exact h1.trans (List.single_le_sum h.nonneg x hx)
  have far1 : Far (-1000) l.sum := Or.inr (by rw [abs_of_pos h.some]; exact le_trans (zpow_le_zpow_right₀ (by norm_num) (by norm_num)) hs)
  have r1 : Rel 1 (fl l.sum) l.sum := Rel.fl h.some.le far1
  have f1 : 2 ^ (-300 : ℤ) ≤ fl l.sum := le_fl (double_pow (by norm_num)) hs
  have q1 : 2 ^ (-326 : ℤ) ≤ fl l.sum / l.length := by
    rw [le_div_iff₀ hn']
    calc (2 : ℚ) ^ (-326 : ℤ) * l.length ≤ 2 ^ (-326 : ℤ) * 2 ^ (25 : ℤ) := mul_le_mul_of_nonneg_left hN' (by positivity)
      _ = 2 ^ (-301 : ℤ) := by rw [← zpow_add₀ (by norm_num)]; norm_num
      _ ≤ 2 ^ (-300 : ℤ) := zpow_le_zpow_right₀ (by norm_num) (by norm_num)
      _ ≤ _ := f1
  have q0 : 0 < fl l.sum / l.length := lt_of_lt_of_le (by positivity) q1
  have r2 : Rel 1 (fl (fl l.sum / l.length)) (fl l.sum / l.length) := Rel.fl q0.le
    (Or.inr (by rw [abs_of_pos q0]; exact le_trans (zpow_le_zpow_right₀ (by norm_num) (by norm_num)) q1))
  have r3 : Rel 1 (fl l.sum / l.length) (l.sum / l.length) := by simpa using r1.div (Rel.refl hn'.le)
  have b : 2 ^ (-326 : ℤ) ≤ fl (fl l.sum / l.length) := le_fl (double_pow (by norm_num)) q1
  exact ⟨_, avg_ok hne, fl_double _, lt_of_lt_of_le (by positivity) b, r2.trans r3, b, r1⟩

theorem double_two {x : ℚ} (h : IsDouble x) : fl (2 * x) = 2 * x := by
  obtain ⟨m, e, hm, he, rfl⟩ := h
  apply fl_id
  refine ⟨m, e + 1, hm, by omega, ?_⟩
  rw [zpow_add₀ (by norm_num), zpow_one]
  ring

theorem exists_largest (l : List ℚ) (h : l ≠ []) : ∃ x ∈ l, ∀ y ∈ l, y ≤ x := by
  induction l with
  | nil => exact absurd rfl h
  | cons a l ih =>
    by_cases hl : l = []
    · exact ⟨a, by simp, by simp [hl]⟩
    · obtain ⟨x, hx, hm⟩ := ih hl
      rcases le_total x a with hxa | hxa
      · exact ⟨a, by simp, fun y hy => by rcases List.mem_cons.mp hy with rfl | hy; exacts [le_rfl, (hm y hy).trans hxa]⟩
      · exact ⟨x, by simp [hx], fun y hy => by rcases List.mem_cons.mp hy with rfl | hy; exacts [hxa, hm y hy]⟩

theorem diff_le_pairSum {l : List ℚ} {x y : ℚ} (hx : x ∈ l) (hy : y ∈ l) (hne : x ≠ y) : |x - y| ≤ pairSum l := by
  induction l with
  | nil => simp at hx
  | cons a l ih =>
    rw [pairSum]
    have h0 : ∀ z ∈ l.map (fun b => |a - b|), 0 ≤ z := by
      intro z hz
      obtain ⟨b, -, rfl⟩ := List.mem_map.mp hz
      exact abs_nonneg _
    have hp := pairSum_nonneg l
    have hs := List.sum_nonneg h0
    rcases List.mem_cons.mp hx with rfl | hx'
    · rcases List.mem_cons.mp hy with rfl | hy'
      · exact absurd rfl hne
      · have := List.single_le_sum h0 _ (List.mem_map.mpr ⟨y, hy', rfl⟩)
        linarith
    · rcases List.mem_cons.mp hy with rfl | hy'
      · have := List.single_le_sum h0 _ (List.mem_map.mpr ⟨x, hx', rfl⟩)
        rw [abs_sub_comm] at this
        linarith
      · have := ih hx' hy'
        linarith

theorem sum_le_largest {l : List ℚ} {m : ℚ} (h : ∀ x ∈ l, x ≤ m) : l.sum ≤ l.length * m := by
  induction l with
  | nil => simp
  | cons a l ih =>
    have := h a (by simp)
    have := ih (fun x hx => h x (by simp [hx]))
    simp only [List.sum_cons, List.length_cons]
    push_cast
    linarith

/-- If not all incomes are equal, then the sum of all differences is not tiny next to the sum of the incomes. -/
theorem Incomes.gap {l : List ℚ} (h : Incomes l) : Far (-79) (pairSum l / l.sum) ∧ Far (-354) (pairSum l) := by
  by_cases h0 : pairSum l = 0
  · exact ⟨Or.inl (by rw [h0, zero_div]), Or.inl h0⟩
  have hne : l ≠ [] := by intro e; have := h.two; simp [e] at this
  obtain ⟨x, hx, hm⟩ := exists_largest l hne
  have : ∃ y ∈ l, y ≠ x := by
    by_contra hc
    push Not at hc
    exact h0 (pairSum_zero.mpr (fun a ha b hb => by rw [hc a ha, hc b hb]))
  obtain ⟨y, hy, hyx⟩ := this
  have hx0 : 0 < x := by
    rcases (h.nonneg x hx).eq_or_lt with e | e
    · have := hm y hy
      have := h.nonneg y hy
      exact absurd (by linarith) hyx
    · exact e
  have g1 := double_gap (h.usual x hx).1 (h.usual y hy).1 hx0.ne' (Ne.symm hyx)
  have g2 := diff_le_pairSum hx hy (Ne.symm hyx)
  rw [abs_of_pos hx0] at g1
  have hs := sum_le_largest hm
  have hN' : (l.length : ℚ) ≤ 2 ^ (25 : ℤ) := by exact_mod_cast h.many
  have hs2 : l.sum ≤ 2 ^ (25 : ℤ) * x := hs.trans (mul_le_mul_of_nonneg_right hN' hx0.le)
  constructor
  · right
    rw [abs_of_nonneg (div_nonneg (pairSum_nonneg l) h.some.le), le_div_iff₀ h.some]
    calc (2 : ℚ) ^ (-79 : ℤ) * l.sum ≤ 2 ^ (-79 : ℤ) * (2 ^ (25 : ℤ) * x) := mul_le_mul_of_nonneg_left hs2 (by positivity)
      _ = x * 2 ^ (-54 : ℤ) := by rw [← mul_assoc, ← zpow_add₀ (by norm_num), mul_comm]; norm_num
      _ ≤ _ := g1.trans g2
  · right
    rw [abs_of_nonneg (pairSum_nonneg l)]
    have hx1 : 2 ^ (-300 : ℤ) ≤ x := by
      rcases (h.usual x hx).2 with e | e
      · exact absurd e hx0.ne'
      · rwa [abs_of_pos hx0] at e
    refine le_trans ?_ (g1.trans g2)
    calc (2 : ℚ) ^ (-354 : ℤ) = 2 ^ (-300 : ℤ) * 2 ^ (-54 : ℤ) := by rw [← zpow_add₀ (by norm_num)]; norm_num
      _ ≤ _ := mul_le_mul_of_nonneg_right hx1 (by positivity)

theorem Far.div_le {k : ℤ} {z c : ℚ} (h : Far k z) {j : ℤ} (hc : 0 < c) (hN : c ≤ 2 ^ j) : Far (k - j) (z / c) := by
  rcases h with rfl | h
  · left; simp
  right
  rw [abs_div, abs_of_pos hc, le_div_iff₀ hc, zpow_sub₀ (by norm_num), div_mul_eq_mul_div, div_le_iff₀ (by positivity)]
  exact mul_le_mul h hN hc.le (abs_nonneg _)

theorem pow_two_le {k : ℕ} (h : k ≤ 2 ^ 51) : g ^ k ≤ 2 ∧ (k : ℚ) * 2 ^ (-51 : ℤ) ≤ 1 := by
  have h1 : (k : ℚ) * 2 ^ (-51 : ℤ) ≤ 1 := by
    have : (k : ℚ) ≤ 2 ^ (51 : ℤ) := by exact_mod_cast h
    calc (k : ℚ) * 2 ^ (-51 : ℤ) ≤ 2 ^ (51 : ℤ) * 2 ^ (-51 : ℤ) := mul_le_mul_of_nonneg_right this (by positivity)
      _ = 1 := by norm_num
  exact ⟨(g_pow h1).1.trans (by linarith), h1⟩

/-- The coefficient of Gini as C65 and C66 have it: half the mean difference of two, by the mean. -/
theorem exact_gini {l : List ℚ} (h : Incomes l) : Stats.giniKakwani l = .ok (pairSum l / (((l.length : ℚ) - 1) * l.sum)) :=
  Stats.giniKakwani_ok h.two h.some.ne'

theorem kakwani_rel {l : List ℚ} (h : Incomes l) : ∃ r, giniKakwani l = .ok r ∧ Rel ((pairs l).length + 5) r (pairSum l / (((l.length : ℚ) - 1) * l.sum)) := by
  obtain ⟨u, hu, hud, hu0, hur, hub, -⟩ := h.avg
  obtain ⟨s, hs, hsd, hsr⟩ := kakwaniSum_rel (fun x hx => (h.usual x hx).1)
  obtain ⟨gap, gap'⟩ := h.gap
  have h2 : (2 : ℚ) ≤ l.length := by exact_mod_cast h.two
  have hN' : (l.length : ℚ) ≤ 2 ^ (25 : ℤ) := by exact_mod_cast h.many
  have hnn : 0 < (l.length : ℚ) * ((l.length : ℚ) - 1) := mul_pos (by linarith) (by linarith)
  have hnn2 : (l.length : ℚ) * ((l.length : ℚ) - 1) ≤ 2 ^ (50 : ℤ) := by
    calc (l.length : ℚ) * ((l.length : ℚ) - 1) ≤ 2 ^ (25 : ℤ) * 2 ^ (25 : ℤ) := mul_le_mul hN' (by linarith) (by linarith) (by positivity)
      _ = 2 ^ (50 : ℤ) := by norm_num
  have hK : (pairs l).length + 4 ≤ 2 ^ 51 := by
    have := pairs_length l
    have h3 := h.many
    have h4 : l.length * (l.length - 1) ≤ 2 ^ 25 * 2 ^ 25 := Nat.mul_le_mul h3 (by omega)
    norm_num at h4 ⊢
    omega
  -- the mean difference
  have far_s : Far (-355) s := by
    have := hsr.far (pow_two_le (by omega)).1 gap'
    exact this
  have pre1 : 0 ≤ 2 * s / ((l.length : ℚ) * ((l.length : ℚ) - 1)) := div_nonneg (by linarith [hsr.left]) hnn.le
  have far1 : Far (-405) (2 * s / ((l.length : ℚ) * ((l.length : ℚ) - 1))) := by
    have : Far (-355) (2 * s) := by
      rcases far_s with e | e
      · left; rw [e, mul_zero]
      · right; rw [abs_mul, abs_two]; linarith [abs_nonneg s]
    exact this.div_le hnn hnn2
  have r1 : Rel 1 (fl (2 * s / ((l.length : ℚ) * ((l.length : ℚ) - 1)))) _ := Rel.fl pre1 (far1.mono (by norm_num))
  have r2 : Rel ((pairs l).length + 1) (2 * s / ((l.length : ℚ) * ((l.length : ℚ) - 1))) (2 * pairSum l / ((l.length : ℚ) * ((l.length : ℚ) - 1))) :=
    (hsr.scale (by norm_num : (0 : ℚ) ≤ 2)).div (Rel.refl hnn.le)
  -- the quotient
  have r3 : Rel 2 (2 * u) (2 * (l.sum / l.length)) := hur.scale (by norm_num)
  have r4 := (r1.trans r2).div r3
  have e : 2 * pairSum l / ((l.length : ℚ) * ((l.length : ℚ) - 1)) / (2 * (l.sum / l.length)) = pairSum l / (((l.length : ℚ) - 1) * l.sum) := by
    have := h.some.ne'
    have : (l.length : ℚ) ≠ 0 := by linarith
    have : (l.length : ℚ) - 1 ≠ 0 := by linarith
    field_simp
  rw [e] at r4
  have far2 : Far (-104) (pairSum l / (((l.length : ℚ) - 1) * l.sum)) := by
    rw [mul_comm, ← div_div]
    exact gap.div_le (by linarith) (by linarith : (l.length : ℚ) - 1 ≤ 2 ^ (25 : ℤ))
  have r5 := Rel.fl r4.left ((r4.far (pow_two_le (by omega)).1 far2).mono (by norm_num))
  refine ⟨_, ?_, (r5.trans r4).mono (by omega)⟩
  simp only [giniKakwani, hu, hs, bind, Except.bind, double_two hsd, double_two hud, div_ok hnn.ne']
  rw [div_ok (by linarith)]

/-- C175: `gini_kakwani` returns, the result is not negative, it is zero exactly if all incomes are equal, and it is as close to the coefficient as the number
of pairs allows. -/
theorem C175_kakwani (l : List ℚ) (h : Incomes l) : ∃ r G, giniKakwani l = .ok r ∧ Stats.giniKakwani l = .ok G ∧ 0 ≤ r ∧ (r = 0 ↔ ∀ x ∈ l, ∀ y ∈ l, x = y) ∧
    |r - G| ≤ G * ((l.length * (l.length - 1) / 2 + 5 : ℕ) * 2 ^ (-51 : ℤ)) := by
  obtain ⟨r, hr, hrel⟩ := kakwani_rel h
  have hl : (pairs l).length = l.length * (l.length - 1) / 2 := by
    have := pairs_length l
    omega
  have hK : (pairs l).length + 5 ≤ 2 ^ 51 := by
    have := pairs_length l
    have h3 := h.many
    have h4 : l.length * (l.length - 1) ≤ 2 ^ 25 * 2 ^ 25 := Nat.mul_le_mul h3 (by omega)
    norm_num at h4 ⊢
    omega
  refine ⟨r, _, hr, exact_gini h, hrel.left, ?_, ?_⟩
  · rw [hrel.zero, ← pairSum_zero, div_eq_zero_iff]
    have h2 : (2 : ℚ) ≤ l.length := by exact_mod_cast h.two
    have : ((l.length : ℚ) - 1) * l.sum ≠ 0 := mul_ne_zero (by linarith) h.some.ne'
    simp [this]
  · rw [hl] at hrel hK
    exact hrel.close (pow_two_le hK).2

/-! ### `gini_deaton` -/

theorem Far.nat_mul {k : ℤ} {z : ℚ} (h : Far k z) (i : ℕ) : Far k (i * z) := by
  rcases Nat.eq_zero_or_pos i with rfl | hi
  · left; simp
  rcases h with rfl | h
  · left; simp
  right
  have : (1 : ℚ) ≤ i := by exact_mod_cast hi
  rw [abs_mul, abs_of_pos (by linarith : (0 : ℚ) < i)]
  nlinarith [abs_nonneg z]

theorem deaton_sum {l : List ℚ} (h : Incomes l) : Rel (l.length + 1) ((sortBy (fun x => -x) l).zipIdx.foldl (fun s p => fl (s + fl ((p.2 : ℚ) * p.1))) (fsum l))
    (l.sum + Stats.wsum (sortBy (fun x => -x) l)) := by
  obtain ⟨-, -, -, -, -, -, r1⟩ := h.avg
  have hp : (sortBy (fun x => -x) l).Perm l := sortBy_perm _ _
  have hm : ∀ p ∈ (sortBy (fun x => -x) l).zipIdx, p.1 ∈ l := by
    intro p hp'
    have : p.1 ∈ sortBy (fun x => -x) l := by
      have := List.mem_zipIdx_iff_getElem?.mp hp'
      exact List.mem_of_getElem? this
    exact hp.mem_iff.mp this
  have hlen : ((sortBy (fun x => -x) l).zipIdx.map (fun p => fl ((p.2 : ℚ) * p.1))).length = l.length := by simp [hp.length_eq]
  have ef := Stats.deaton_fold (sortBy (fun x => -x) l) 0 l.sum
  rw [Nat.cast_zero, zero_mul, add_zero] at ef
  rw [← ef]
  generalize (sortBy (fun x => -x) l).zipIdx = z at *
  have e1 : z.foldl (fun s p => fl (s + fl ((p.2 : ℚ) * p.1))) (fsum l) = (z.map (fun p => fl ((p.2 : ℚ) * p.1))).foldl (fun s q => fl (s + q)) (fl l.sum) := by
    rw [List.foldl_map]; rfl
  have e2 : ∀ c : ℚ, z.foldl (fun s p => s + (p.2 : ℚ) * p.1) c = c + (z.map (fun p => (p.2 : ℚ) * p.1)).sum := by
    intro c
    clear ef e1 hm hlen
    induction z generalizing c with
    | nil => simp
    | cons p z ih => rw [List.foldl_cons, ih, List.map_cons, List.sum_cons, add_assoc]
  have rt : List.Forall₂ (Rel 1) (z.map (fun p => fl ((p.2 : ℚ) * p.1))) (z.map (fun p => (p.2 : ℚ) * p.1)) := by
    rw [List.forall₂_map_left_iff, List.forall₂_map_right_iff, List.forall₂_same]
    intro p hp'
    have hx := hm p hp'
    exact Rel.fl (mul_nonneg (by positivity) (h.nonneg _ hx)) (((h.usual _ hx).2.nat_mul p.2).mono (by norm_num))
  rw [e1, e2]
  have a := accum_rel (qs := z.map (fun p => fl ((p.2 : ℚ) * p.1))) (by
    intro q hq
    obtain ⟨p, hp', rfl⟩ := List.mem_map.mp hq
    exact ⟨fl_double _, (Rel.fl (mul_nonneg (by positivity) (h.nonneg _ (hm p hp'))) (((h.usual _ (hm p hp')).2.nat_mul p.2).mono (by norm_num))).left⟩)
    (fl_double l.sum) r1.left
  rw [hlen] at a
  refine a.trans ?_
  have := sum_rel (List.Forall₂.cons r1 rt)
  simpa only [List.sum_cons] using this

/-- C175: `gini_deaton` returns, and the result is as close to the coefficient as the number of incomes allows. -/
theorem C175_deaton (l : List ℚ) (h : Incomes l) : ∃ r G, giniDeaton l = .ok r ∧ Stats.giniDeaton l = .ok G ∧
    |r - G| ≤ (3 * l.length + 17 : ℕ) * 2 ^ (-51 : ℤ) := by
  obtain ⟨u, hu, hud, hu0, hur, hub, -⟩ := h.avg
  have hS := deaton_sum h
  have h2 : (2 : ℚ) ≤ l.length := by exact_mod_cast h.two
  have hN' : (l.length : ℚ) ≤ 2 ^ (25 : ℤ) := by exact_mod_cast h.many
  obtain ⟨G, -, hG, hG0, hG1, -⟩ := Stats.C66_gini l h.two h.nonneg h.some
  have hGe := (Stats.giniDeaton_ok h.two h.some.ne').symm.trans hG
  injection hGe with hGe
  set S' := (sortBy (fun x => -x) l).zipIdx.foldl (fun s p => fl (s + fl ((p.2 : ℚ) * p.1))) (fsum l) with hS'
  have hSd : IsDouble S' := by
    rw [hS']
    rcases List.eq_nil_or_concat (sortBy (fun x => -x) l).zipIdx with e | ⟨q, p, e⟩
    · rw [e]; exact fl_double _
    · rw [e, List.concat_eq_append, List.foldl_append]; exact fl_double _
  set W := Stats.wsum (sortBy (fun x => -x) l) with hW
  have hnn : 1 ≤ (l.length : ℚ) * ((l.length : ℚ) - 1) := by nlinarith
  have hs0 := h.some
  -- the divisor
  have pre : 2 ^ (-326 : ℤ) ≤ (l.length : ℚ) * ((l.length : ℚ) - 1) * u := by nlinarith
  have pre0 : 0 < (l.length : ℚ) * ((l.length : ℚ) - 1) * u := lt_of_lt_of_le (by positivity) pre
  have d1 : Rel 1 (fl ((l.length : ℚ) * ((l.length : ℚ) - 1) * u)) _ := Rel.fl pre0.le
    (Or.inr (by rw [abs_of_pos pre0]; exact le_trans (zpow_le_zpow_right₀ (by norm_num) (by norm_num)) pre))
  have d2 : Rel 2 ((l.length : ℚ) * ((l.length : ℚ) - 1) * u) (((l.length : ℚ) - 1) * l.sum) := by
    have := hur.scale (show 0 ≤ (l.length : ℚ) * ((l.length : ℚ) - 1) by linarith)
    rwa [show (l.length : ℚ) * ((l.length : ℚ) - 1) * (l.sum / l.length) = ((l.length : ℚ) - 1) * l.sum by
      have : (l.length : ℚ) ≠ 0 := by linarith
      field_simp] at this
  have hD : fl ((l.length : ℚ) * ((l.length : ℚ) - 1) * u) ≠ 0 := by
    intro e
    exact pre0.ne' (d1.zero.mp e)
  have r1 := (hS.scale (by norm_num : (0 : ℚ) ≤ 2)).div (d1.trans d2)
  have hm1 : 0 < ((l.length : ℚ) - 1) * l.sum := mul_pos (by linarith) hs0
  have hR : 2 * (l.sum + W) / (((l.length : ℚ) - 1) * l.sum) = ((l.length : ℚ) + 1) / ((l.length : ℚ) - 1) - G := by
    rw [← hGe]
    have : l.sum ≠ 0 := hs0.ne'
    have : (l.length : ℚ) - 1 ≠ 0 := by linarith
    field_simp
    ring
  rw [hR] at r1
  have hQ : ((l.length : ℚ) + 1) / ((l.length : ℚ) - 1) ≤ 3 := by rw [div_le_iff₀ (by linarith)]; linarith
  have hQ1 : 2 ^ (-24 : ℤ) ≤ ((l.length : ℚ) + 1) / ((l.length : ℚ) - 1) - G := by
    have : 1 + 2 ^ (-24 : ℤ) ≤ ((l.length : ℚ) + 1) / ((l.length : ℚ) - 1) := by
      rw [le_div_iff₀ (by linarith)]
      have hN3 : (l.length : ℚ) ≤ 33554432 := hN'.trans (by norm_num)
      norm_num
      linarith
    linarith
  set Q := ((l.length : ℚ) + 1) / ((l.length : ℚ) - 1) with hQe
  have hK : l.length + 6 ≤ 2 ^ 51 := by
    have := h.many
    norm_num at this ⊢
    omega
  have far : Far (-24) (Q - G) := Or.inr (le_trans hQ1 (le_abs_self _))
  have r2 := Rel.fl r1.left ((r1.far (pow_two_le (by omega)).1 far).mono (by norm_num))
  have c := (r2.trans r1).close (pow_two_le (by omega)).2
  have cq := fl_close (x := Q) rfl rfl
  have hQ0 : 0 ≤ Q := div_nonneg (by linarith) (by linarith)
  rw [abs_of_nonneg hQ0] at cq
  set r := fl (2 * S' / fl ((l.length : ℚ) * ((l.length : ℚ) - 1) * u)) with hr
  have cf := fl_close (x := fl Q - r) rfl rfl
  refine ⟨fl (fl Q - r), G, ?_, hG, ?_⟩
  · simp only [giniDeaton, hu, bind, Except.bind, ← hS', double_two hSd, div_ok (show (l.length : ℚ) - 1 ≠ 0 by linarith), div_ok hD, pure, Except.pure]
    rfl
  · have hη : (2 : ℚ) ^ (-1075 : ℤ) ≤ 2 ^ (-53 : ℤ) := zpow_le_zpow_right₀ (by norm_num) (by norm_num)
    have ew : (2 : ℚ) ^ (-51 : ℤ) = 4 * 2 ^ (-53 : ℤ) := by norm_num
    have hw0 : (0 : ℚ) < 2 ^ (-53 : ℤ) := by positivity
    have hw1 : (l.length : ℚ) * 2 ^ (-53 : ℤ) ≤ 1 / 1000 := by
      calc (l.length : ℚ) * 2 ^ (-53 : ℤ) ≤ 2 ^ (25 : ℤ) * 2 ^ (-53 : ℤ) := mul_le_mul_of_nonneg_right hN' hw0.le
        _ ≤ 1 / 1000 := by norm_num
    have hw2 : (2 : ℚ) ^ (-53 : ℤ) ≤ 1 / 1000 := by norm_num
    rw [ew] at c ⊢
    have c' : |r - (Q - G)| ≤ 3 * ((l.length + 5) * (4 * 2 ^ (-53 : ℤ))) := by
      refine c.trans ?_
      have e : (((1 + (l.length + 1 + (1 + 2)) : ℕ))   : ℚ) ≤ l.length + 5 := by push_cast; linarith
      refine mul_le_mul (by linarith) (mul_le_mul_of_nonneg_right e (by positivity)) (by positivity) (by norm_num)
    clear c r2 r1 far hR d1 d2 pre pre0 hS hur hub hD
    have t : |fl Q - r - G| ≤ |fl Q - Q| + |r - (Q - G)| := by
      have := abs_sub (fl Q - Q) (r - (Q - G))
      rwa [show fl Q - Q - (r - (Q - G)) = fl Q - r - G by ring] at this
    have t2 : |fl Q - r| ≤ |fl Q - r - G| + G := by
      have := abs_add_le (fl Q - r - G) G
      rwa [sub_add_cancel, abs_of_nonneg hG0] at this
    have t3 : |fl (fl Q - r) - G| ≤ |fl (fl Q - r) - (fl Q - r)| + |fl Q - r - G| := by
      have := abs_add_le (fl (fl Q - r) - (fl Q - r)) (fl Q - r - G)
      rwa [show fl (fl Q - r) - (fl Q - r) + (fl Q - r - G) = fl (fl Q - r) - G by ring] at this
    push_cast
    generalize (2 : ℚ) ^ (-53 : ℤ) = w at *
    generalize (2 : ℚ) ^ (-1075 : ℤ) = η at *
    have k1 : |fl Q - Q| ≤ 4 * w := by nlinarith
    have k2 : |fl Q - r| ≤ 2 := by nlinarith
    have k3 : |fl Q - r| * w ≤ 2 * w := mul_le_mul_of_nonneg_right k2 hw0.le
    linarith

/-! ### What goes wrong -/

/-- A dime as a float. -/
def dime : ℚ := fl (1 / 10)

theorem dime_usual : IsDouble dime ∧ Far (-300) dime ∧ 0 < dime := by
  refine ⟨fl_double _, Or.inr ?_, by decide +kernel⟩
  have : dime = 3602879701896397 / 36028797018963968 := by decide +kernel
  rw [this, abs_of_pos (by norm_num)]
  exact le_trans (zpow_le_zpow_right₀ (by norm_num) (by norm_num : (-300 : ℤ) ≤ -4)) (by norm_num)

/-- Incomes for which the theorems hold. -/
example : Incomes [dime, 0, 0, 0] ∧ Incomes [dime, dime] := by
  obtain ⟨h1, h2, h3⟩ := dime_usual
  have z : IsDouble 0 ∧ Far (-300) 0 := ⟨double_zero, Or.inl rfl⟩
  refine ⟨⟨by decide, by decide, ?_, ?_, ?_⟩, ⟨by decide, by decide, ?_, ?_, ?_⟩⟩
  · simp [h1, h2, z]
  · simp [h3.le]
  · simpa using h3
  · simp [h1, h2]
  · simp [h3.le]
  · simpa using h3

/-- C175: the coefficient of one income and three without is more than one: the range `C66_gini` states is not kept. -/
theorem C175_kakwani_violated : giniKakwani [dime, 0, 0, 0] = .ok (1 + 2 ^ (-52 : ℤ)) := by decide +kernel

/-- C175: the coefficient of two equal incomes is negative. -/
theorem C175_deaton_violated : giniDeaton [dime, dime] = .ok (- 2 ^ (-51 : ℤ)) := by decide +kernel

end Flt
end Coral
