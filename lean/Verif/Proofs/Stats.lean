import Verif.Proofs.StatsMemo
import Verif.Proofs.Buffer
import Mathlib.Algebra.BigOperators.Ring.Finset
import Mathlib.Algebra.BigOperators.Field
import Mathlib.Algebra.Order.BigOperators.Ring.Finset
import Mathlib.Algebra.Order.BigOperators.Group.List
import Mathlib.Algebra.BigOperators.Group.List.Lemmas
import Mathlib.Tactic.Linarith
import Mathlib.Tactic.Ring
import Mathlib.Tactic.LinearCombination
import Mathlib.Tactic.Positivity
import Mathlib.Tactic.FieldSimp

/-! # Proofs about the bare functions of `stats` -/
set_option linter.unusedSectionVars false
namespace Coral
namespace Stats
open Buffer (pyIndex_nat)
open scoped List

variable {K : Type} [Field K] [LinearOrder K] [IsStrictOrderedRing K] [FloorRing K]

theorem len_pos {l : List K} (h : l ≠ []) : (0 : K) < (l.length : K) := by
  exact_mod_cast List.length_pos_of_ne_nil h

theorem avg_ok {l : List K} (h : l ≠ []) : avg l = .ok (l.sum / (l.length : K)) := by
  simp [avg, div, (len_pos h).ne']

theorem var_ok {l : List K} (h : l ≠ []) : var l = .ok
    ((l.map (fun x => (x - l.sum / (l.length : K)) * (x - l.sum / (l.length : K)))).sum / (l.length : K)) := by
  simp only [var, avg_ok h, bind, Except.bind, div, if_neg (len_pos h).ne']

theorem sum_sq (l : List K) (u : K) : (l.map (fun x => (x - u) * (x - u))).sum =
    (l.map (fun x => x ^ 2)).sum - 2 * u * l.sum + (l.length : K) * u ^ 2 := by
  induction l with
  | nil => simp
  | cons a l ih => simp only [List.map_cons, List.sum_cons, ih, List.length_cons]; push_cast; ring

theorem sum_sq_nonneg (l : List K) (u : K) : 0 ≤ (l.map (fun x => (x - u) * (x - u))).sum := by
  apply List.sum_nonneg
  intro y hy
  obtain ⟨x, _, rfl⟩ := List.mem_map.mp hy
  exact mul_self_nonneg _

theorem sum_sq_zero {l : List K} {u : K} (h : (l.map (fun x => (x - u) * (x - u))).sum = 0) : ∀ x ∈ l, x = u := by
  induction l with
  | nil => simp
  | cons a l ih =>
    simp only [List.map_cons, List.sum_cons] at h
    have h1 := mul_self_nonneg (a - u)
    have h2 := sum_sq_nonneg l u
    intro x hx
    rcases List.mem_cons.mp hx with rfl | hx
    · have : (x - u) * (x - u) = 0 := by linarith
      rcases mul_eq_zero.mp this with h | h <;> linarith
    · exact ih (by linarith) x hx

theorem sum_const {l : List K} {a : K} (h : ∀ x ∈ l, x = a) : l.sum = (l.length : K) * a := by
  induction l with
  | nil => simp
  | cons b l ih =>
    rw [List.sum_cons, ih (fun x hx => h x (by simp [hx])), h b (by simp)]
    simp only [List.length_cons]; push_cast; ring

theorem sum_map_add (l : List K) (c : K) : (l.map (· + c)).sum = l.sum + (l.length : K) * c := by
  induction l with
  | nil => simp
  | cons b l ih =>
    simp only [List.map_cons, List.sum_cons, ih, List.length_cons]; push_cast; ring

theorem sum_map_mul (l : List K) (c : K) : (l.map (c * ·)).sum = c * l.sum := by
  induction l with
  | nil => simp
  | cons b l ih => simp only [List.map_cons, List.sum_cons, ih]; ring

theorem sum_map_mul' {α : Type} (l : List α) (c : K) (g : α → K) : (l.map (fun x => c * g x)).sum = c * (l.map g).sum := by
  induction l with
  | nil => simp
  | cons b l ih => simp only [List.map_cons, List.sum_cons, ih]; ring

/-! ### Sums over indices -/

theorem sum_range (l : List K) (g : K → K) : (l.map g).sum = ∑ i ∈ Finset.range l.length, g (l.getD i 0) := by
  induction l with
  | nil => simp
  | cons a l ih =>
    rw [List.map_cons, List.sum_cons, List.length_cons, Finset.sum_range_succ', ih, add_comm]
    simp

theorem sum_range_id (l : List K) : l.sum = ∑ i ∈ Finset.range l.length, l.getD i 0 := by
  simpa using sum_range l id

theorem covarLoop_ok {x y : List K} (hl : x.length = y.length) (hx : x ≠ []) (u v : K) :
    covarLoop x y (x.length : K) u v = .ok ((∑ i ∈ Finset.range x.length, (x.getD i 0 - u) * (y.getD i 0 - v)) / (x.length : K)) := by
  unfold covarLoop
  rw [Int.floor_natCast, Int.toNat_natCast]
  suffices h : ∀ k ≤ x.length, (List.range k).foldlM (fun (cov : K) (i : Nat) => do
      let x' ← pyIndex x i
      let a := x' - u
      let y' ← pyIndex y i
      let b := y' - v
      let q ← div (a * b) (x.length : K)
      return cov + q) 0 = (.ok ((∑ i ∈ Finset.range k, (x.getD i 0 - u) * (y.getD i 0 - v)) / (x.length : K)) : Py K) from
    h _ (le_refl _)
  intro k hk
  induction k with
  | zero => simp; rfl
  | succ k ih =>
    rw [List.range_succ, List.foldlM_append, ih (by omega)]
    have e1 := pyIndex_nat x k _ (List.getElem?_eq_getElem (by omega))
    have e2 := pyIndex_nat y k _ (List.getElem?_eq_getElem (by omega))
    simp only [bind, Except.bind, List.foldlM_cons, List.foldlM_nil, e1, e2, div, if_neg (len_pos hx).ne', pure, Except.pure]
    rw [Finset.sum_range_succ, add_div]
    have g1 : x.getD k 0 = x[k] := by simp [List.getD, List.getElem?_eq_getElem (show k < x.length by omega)]
    have g2 : y.getD k 0 = y[k] := by simp [List.getD, List.getElem?_eq_getElem (show k < y.length by omega)]
    rw [g1, g2]

theorem covar_ok {x y : List K} (hl : x.length = y.length) (hx : x ≠ []) : covar x y = .ok
    ((∑ i ∈ Finset.range x.length, (x.getD i 0 - x.sum / (x.length : K)) * (y.getD i 0 - y.sum / (y.length : K))) / (x.length : K)) := by
  have hy : y ≠ [] := by intro h; subst h; simp at hl; exact hx hl
  simp only [covar, avg_ok hx, avg_ok hy, bind, Except.bind, covarLoop_ok hl hx]

/-! ### The Gini coefficients -/

/-- The sum of the differences of all pairs. -/
def pairSum : List K → K
  | [] => 0
  | a :: l => (l.map (fun b => |a - b|)).sum + pairSum l

/-- The sum of the values times their position. -/
def wsum : List K → K
  | [] => 0
  | _ :: l => wsum l + l.sum

theorem kakwani_inner (l : List K) (a : K) (i : Nat) (hi : l[i]? = some a) (j : Nat) (hj : j ≤ l.length) (s : K) :
    (List.range' j (l.length - j)).foldlM (fun s (j : Nat) => do
      let a ← pyIndex l (i : Nat)
      let b ← pyIndex l (j : Nat)
      return s + |a - b|) s = (.ok (s + ((l.drop j).map (fun b => |a - b|)).sum) : Py K) := by
  have ea := pyIndex_nat l i _ hi
  induction hk : l.length - j generalizing j s with
  | zero =>
    have : l.drop j = [] := by rw [List.drop_eq_nil_iff]; omega
    simp [this]; rfl
  | succ k ih =>
    have hjl : j < l.length := by omega
    have eb := pyIndex_nat l j _ (List.getElem?_eq_getElem hjl)
    rw [List.range'_succ, List.foldlM_cons]
    simp only [ea, eb, bind, Except.bind, pure, Except.pure] at ih ⊢
    rw [ih (j + 1) (by omega) _ (by omega), List.drop_eq_getElem_cons hjl, List.map_cons, List.sum_cons, add_assoc]

theorem kakwani_outer (l : List K) (i : Nat) (hi : i ≤ l.length) (s : K) :
    (List.range' i (l.length - i)).foldlM (fun s i => (List.range' (i + 1) (l.length - (i + 1))).foldlM (fun s (j : Nat) => do
      let a ← pyIndex l (i : Nat)
      let b ← pyIndex l (j : Nat)
      return s + |a - b|) s) s = (.ok (s + pairSum (l.drop i)) : Py K) := by
  induction hk : l.length - i generalizing i s with
  | zero =>
    have : l.drop i = [] := by rw [List.drop_eq_nil_iff]; omega
    simp [this, pairSum]; rfl
  | succ k ih =>
    have hil : i < l.length := by omega
    rw [List.range'_succ, List.foldlM_cons, kakwani_inner l _ i (List.getElem?_eq_getElem hil) (i + 1) (by omega)]
    simp only [bind, Except.bind]
    have := ih (i + 1) (by omega) (s + ((l.drop (i + 1)).map (fun b => |l[i] - b|)).sum) (by omega)
    simp only [bind, Except.bind] at this
    rw [this, List.drop_eq_getElem_cons hil, pairSum, add_assoc]

theorem giniKakwani_ok {l : List K} (hn : 2 ≤ l.length) (hs : l.sum ≠ 0) :
    giniKakwani l = .ok (pairSum l / (((l.length : K) - 1) * l.sum)) := by
  have hne : l ≠ [] := by intro h; simp [h] at hn
  have hp := len_pos hne
  have h2 : (2 : K) ≤ (l.length : K) := by exact_mod_cast hn
  have h1 : (l.length : K) - 1 ≠ 0 := by intro h; linarith
  have hu : 2 * (l.sum / (l.length : K)) ≠ 0 := mul_ne_zero two_ne_zero (div_ne_zero hs hp.ne')
  have ho := kakwani_outer l 0 (by omega) 0
  rw [Nat.sub_zero, ← List.range_eq_range', List.drop_zero, zero_add] at ho
  have key : kakwaniLoop l (l.length : K) (l.sum / (l.length : K)) = .ok
      (2 * pairSum l / ((l.length : K) * ((l.length : K) - 1)) / (2 * (l.sum / (l.length : K)))) := by
    simp only [kakwaniLoop, Int.floor_natCast, Int.toNat_natCast]
    rw [ho]
    simp only [bind, Except.bind, div, if_neg (mul_ne_zero hp.ne' h1), if_neg hu]
  simp only [giniKakwani, avg_ok hne, bind, Except.bind]
  rw [key]
  congr 1
  have := hp.ne'
  field_simp

theorem deaton_fold (l : List K) (k : Nat) (s : K) : (l.zipIdx k).foldl (fun s p => s + (p.2 : K) * p.1) s =
    s + (k : K) * l.sum + wsum l := by
  induction l generalizing k s with
  | nil => simp [wsum]
  | cons a l ih =>
    rw [List.zipIdx_cons, List.foldl_cons, ih, wsum, List.sum_cons]
    push_cast
    ring

theorem giniDeaton_ok {l : List K} (hn : 2 ≤ l.length) (hs : l.sum ≠ 0) :
    giniDeaton l = .ok (1 - 2 * wsum (sortBy (fun x => -x) l) / (((l.length : K) - 1) * l.sum)) := by
  have hne : l ≠ [] := by intro h; simp [h] at hn
  have hp := (len_pos hne).ne'
  have h2 : (2 : K) ≤ (l.length : K) := by exact_mod_cast hn
  have h1 : (l.length : K) - 1 ≠ 0 := by intro h; linarith
  have hu : (l.length : K) * ((l.length : K) - 1) * (l.sum / (l.length : K)) ≠ 0 :=
    mul_ne_zero (mul_ne_zero hp h1) (div_ne_zero hs hp)
  have key : deatonLoop l (l.length : K) (l.sum / (l.length : K)) l.sum = .ok
      (((l.length : K) + 1) / ((l.length : K) - 1) - 2 * (l.sum + wsum (sortBy (fun x => -x) l)) /
        ((l.length : K) * ((l.length : K) - 1) * (l.sum / (l.length : K)))) := by
    simp only [deatonLoop]
    rw [deaton_fold]
    simp only [bind, Except.bind, div, if_neg hu, if_neg h1, pure, Except.pure, Nat.cast_zero, zero_mul, add_zero]
  simp only [giniDeaton, avg_ok hne, bind, Except.bind]
  rw [key]
  congr 1
  field_simp
  ring

theorem pairSum_perm {l l' : List K} (h : l ~ l') : pairSum l = pairSum l' := by
  induction h with
  | nil => rfl
  | cons a h ih => rw [pairSum, pairSum, ih, (h.map _).sum_eq]
  | swap a b l =>
    simp only [pairSum, List.map_cons, List.sum_cons]
    rw [abs_sub_comm a b]
    ring
  | trans _ _ ih1 ih2 => rw [ih1, ih2]

theorem sum_map_sub (l : List K) (a : K) : (l.map (fun b => a - b)).sum = (l.length : K) * a - l.sum := by
  induction l with
  | nil => simp
  | cons b l ih =>
    simp only [List.map_cons, List.sum_cons, ih, List.length_cons]; push_cast; ring

theorem pairSum_desc {l : List K} (h : l.Pairwise (fun a b => b ≤ a)) :
    pairSum l = ((l.length : K) - 1) * l.sum - 2 * wsum l := by
  induction l with
  | nil => simp [pairSum, wsum]
  | cons a l ih =>
    obtain ⟨h1, h2⟩ := List.pairwise_cons.mp h
    have e : l.map (fun b => |a - b|) = l.map (fun b => a - b) := by
      apply List.map_congr_left
      intro b hb
      exact abs_of_nonneg (by have := h1 b hb; linarith)
    rw [pairSum, e, ih h2, wsum, sum_map_sub, List.sum_cons, List.length_cons]
    push_cast
    ring

theorem pairSum_eq (l : List K) : pairSum l = ((l.length : K) - 1) * l.sum - 2 * wsum (sortBy (fun x => -x) l) := by
  have hp := sortBy_perm (fun x : K => -x) l
  have hs : (sortBy (fun x : K => -x) l).Pairwise (fun a b => b ≤ a) :=
    (sortBy_sorted (fun x : K => -x) l).imp (fun h => by linarith)
  rw [← pairSum_perm hp, pairSum_desc hs, hp.length_eq, hp.sum_eq]

theorem pairSum_nonneg (l : List K) : 0 ≤ pairSum l := by
  induction l with
  | nil => simp [pairSum]
  | cons a l ih =>
    rw [pairSum]
    have : 0 ≤ (l.map (fun b => |a - b|)).sum := by
      apply List.sum_nonneg
      intro y hy
      obtain ⟨x, _, rfl⟩ := List.mem_map.mp hy
      exact abs_nonneg _
    linarith

theorem pairSum_zero {l : List K} : pairSum l = 0 ↔ ∀ x ∈ l, ∀ y ∈ l, x = y := by
  constructor
  · intro h
    cases l with
    | nil => simp
    | cons a l =>
      rw [pairSum] at h
      have h1 := pairSum_nonneg l
      have h2 : ∀ l : List K, 0 ≤ (l.map (fun b => |a - b|)).sum := by
        intro l
        apply List.sum_nonneg
        intro y hy
        obtain ⟨x, _, rfl⟩ := List.mem_map.mp hy
        exact abs_nonneg _
      have h3 : (l.map (fun b => |a - b|)).sum = 0 := by have := h2 l; linarith
      have h4 : ∀ b ∈ l, b = a := by
        clear h h1
        induction l with
        | nil => simp
        | cons c l ih =>
          simp only [List.map_cons, List.sum_cons] at h3
          have := h2 l
          have h5 := abs_nonneg (a - c)
          intro b hb
          rcases List.mem_cons.mp hb with rfl | hb
          · have : |a - b| = 0 := by linarith
            have := abs_eq_zero.mp this
            linarith
          · exact ih (by linarith) b hb
      intro x hx y hy
      have hh : ∀ z ∈ a :: l, z = a := by
        intro z hz
        rcases List.mem_cons.mp hz with rfl | hz
        · rfl
        · exact h4 z hz
      rw [hh x hx, hh y hy]
  · intro h
    induction l with
    | nil => rfl
    | cons a l ih =>
      rw [pairSum, ih (fun x hx y hy => h x (by simp [hx]) y (by simp [hy]))]
      have : l.map (fun b => |a - b|) = l.map (fun _ => 0) := by
        apply List.map_congr_left
        intro b hb
        rw [h a (by simp) b (by simp [hb])]; simp
      rw [this]; simp

theorem wsum_nonneg {l : List K} (h : ∀ x ∈ l, 0 ≤ x) : 0 ≤ wsum l := by
  induction l with
  | nil => simp [wsum]
  | cons a l ih =>
    have h' : ∀ x ∈ l, 0 ≤ x := fun x hx => h x (by simp [hx])
    rw [wsum]
    exact add_nonneg (ih h') (List.sum_nonneg h')

theorem pairSum_scale (l : List K) (c : K) (hc : 0 < c) : pairSum (l.map (c * ·)) = c * pairSum l := by
  induction l with
  | nil => simp [pairSum]
  | cons a l ih =>
    rw [List.map_cons, pairSum, pairSum, ih, List.map_map, mul_add, ← sum_map_mul']
    congr 2
    apply List.map_congr_left
    intro b _
    show |c * a - c * b| = c * |a - b|
    rw [← mul_sub, abs_mul, abs_of_pos hc]

end Stats
end Coral
