import Verif.Model.Names
import Verif.Spec.Names
import Verif.PyList
import Verif.Proofs.Buffer
import Mathlib.Tactic.Linarith
import Mathlib.Tactic.Ring
import Mathlib.Tactic.Positivity
import Mathlib.Tactic.FieldSimp
import Mathlib.Tactic.Push

/-! # Proofs about `names` -/
set_option linter.unusedSectionVars false
namespace Coral
open Buffer (pyIndex_nat)
open scoped List

section
variable {α : Type} [DecidableEq α]

/-! ### The recurrence, on reversed prefixes -/

/-- The recurrence that `damlev` tabulates. -/
def osa : List α → List α → Nat
  | [], y => y.length
  | x, [] => x.length
  | [a], b :: y => min (min (osa [] (b :: y) + 1) (osa [a] y + 1)) (osa [] y + if a = b then 0 else 1)
  | a :: x, [b] => min (min (osa x [b] + 1) (osa (a :: x) [] + 1)) (osa x [] + if a = b then 0 else 1)
  | a :: a' :: x, b :: b' :: y =>
    let m := min (min (osa (a' :: x) (b :: b' :: y) + 1) (osa (a :: a' :: x) (b' :: y) + 1))
      (osa (a' :: x) (b' :: y) + if a = b then 0 else 1)
    if a = b' ∧ a' = b then min m (osa x y + if a = b then 0 else 1) else m
  termination_by x y => x.length + y.length

theorem osa_nil_left (y : List α) : osa [] y = y.length := by rw [osa]

theorem osa_nil_right (x : List α) : osa x [] = x.length := by
  cases x with
  | nil => rw [osa_nil_left]
  | cons a x => rw [osa]; simp

/-- The three basic edits. -/
def osa3 (a b : α) (x y : List α) : Nat :=
  min (min (osa x (b :: y) + 1) (osa (a :: x) y + 1)) (osa x y + if a = b then 0 else 1)

theorem osa_cons_single (a b : α) (x : List α) : osa (a :: x) [b] = osa3 a b x [] := by
  cases x with
  | nil => rw [osa]; rfl
  | cons a' x => rw [osa]; rfl; simp

theorem osa_single_cons (a b : α) (y : List α) : osa [a] (b :: y) = osa3 a b [] y := by rw [osa]; rfl

theorem osa_cons2 (a a' b b' : α) (x y : List α) : osa (a :: a' :: x) (b :: b' :: y) =
    if a = b' ∧ a' = b then min (osa3 a b (a' :: x) (b' :: y)) (osa x y + if a = b then 0 else 1)
    else osa3 a b (a' :: x) (b' :: y) := by
  rw [osa]; rfl

theorem osa_le_osa3 (a b : α) (x y : List α) : osa (a :: x) (b :: y) ≤ osa3 a b x y := by
  cases x with
  | nil => rw [osa_single_cons]
  | cons a' x =>
    cases y with
    | nil => rw [osa_cons_single]
    | cons b' y =>
      rw [osa_cons2]
      split
      · exact min_le_left _ _
      · exact le_refl _

theorem osa_delete (a : α) (x y : List α) : osa (a :: x) y ≤ osa x y + 1 := by
  cases y with
  | nil => simp [osa_nil_right]
  | cons b y => exact le_trans (osa_le_osa3 a b x y) (le_trans (min_le_left _ _) (min_le_left _ _))

theorem osa_insert (b : α) (x y : List α) : osa x (b :: y) ≤ osa x y + 1 := by
  cases x with
  | nil => simp [osa_nil_left]
  | cons a x => exact le_trans (osa_le_osa3 a b x y) (le_trans (min_le_left _ _) (min_le_right _ _))

theorem osa_sub (a b : α) (x y : List α) : osa (a :: x) (b :: y) ≤ osa x y + if a = b then 0 else 1 :=
  le_trans (osa_le_osa3 a b x y) (min_le_right _ _)

theorem osa_exchange (a b : α) (x y : List α) : osa (a :: b :: x) (b :: a :: y) ≤ osa x y + 1 := by
  rw [osa_cons2, if_pos ⟨rfl, rfl⟩]
  refine le_trans (min_le_right _ _) ?_
  split <;> omega

/-- No sequence of edits is cheaper. -/
theorem osa_le {x y : List α} {n : Nat} (h : Edits x y n) : osa x y ≤ n := by
  induction h with
  | nil => simp [osa_nil_left]
  | @keep a s t n _ ih => have := osa_sub a a s t; simp at this; omega
  | @replace a b s t n _ ih => have := osa_sub a b s t; split at this <;> omega
  | @delete a s t n _ ih => have := osa_delete a s t; omega
  | @insert b s t n _ ih => have := osa_insert b s t; omega
  | @exchange a b s t n _ ih => have := osa_exchange a b s t; omega

theorem edits_delete_all (x : List α) : Edits x [] x.length := by
  induction x with
  | nil => exact .nil
  | cons a x ih => exact .delete ih

theorem edits_insert_all (y : List α) : Edits [] y y.length := by
  induction y with
  | nil => exact .nil
  | cons a x ih => exact .insert ih

theorem edits_osa3 {a b : α} {x y : List α} (h1 : Edits x (b :: y) (osa x (b :: y))) (h2 : Edits (a :: x) y (osa (a :: x) y))
    (h3 : Edits x y (osa x y)) : Edits (a :: x) (b :: y) (osa3 a b x y) := by
  unfold osa3
  rcases min_choice (min (osa x (b :: y) + 1) (osa (a :: x) y + 1)) (osa x y + if a = b then 0 else 1) with e | e
  · rw [e]
    rcases min_choice (osa x (b :: y) + 1) (osa (a :: x) y + 1) with e' | e'
    · rw [e']; exact .delete h1
    · rw [e']; exact .insert h2
  · rw [e]
    split
    · rename_i hab; subst hab; exact .keep h3
    · exact .replace h3

/-- The cost of the recurrence is attained. -/
theorem edits_osa (x y : List α) : Edits x y (osa x y) := by
  induction hn : x.length + y.length using Nat.strongRecOn generalizing x y with
  | _ n ih =>
    subst hn
    match x, y with
    | [], y => rw [osa_nil_left]; exact edits_insert_all y
    | a :: x, [] => rw [osa_nil_right]; exact edits_delete_all _
    | [a], b :: y =>
      rw [osa_single_cons]
      exact edits_osa3 (ih _ (by simp) _ _ rfl) (ih _ (by simp) _ _ rfl) (ih _ (by simp; omega) _ _ rfl)
    | a :: a' :: x, [b] =>
      rw [osa_cons_single]
      exact edits_osa3 (ih _ (by simp) _ _ rfl) (ih _ (by simp) _ _ rfl) (ih _ (by simp) _ _ rfl)
    | a :: a' :: x, b :: b' :: y =>
      rw [osa_cons2]
      have h3 := edits_osa3 (a := a) (b := b) (x := a' :: x) (y := b' :: y) (ih _ (by simp) _ _ rfl) (ih _ (by simp) _ _ rfl)
        (ih _ (by simp; omega) _ _ rfl)
      split
      · rename_i hc
        obtain ⟨rfl, rfl⟩ := hc
        have h4 := ih _ (by simp; omega) x y rfl
        rcases min_choice (osa3 a a' (a' :: x) (a :: y)) (osa x y + if a = a' then 0 else 1) with e | e
        · rw [e]; exact h3
        · rw [e]
          split
          · rename_i haa; subst haa; exact .keep (.keep h4)
          · exact .exchange h4
      · exact h3

/-! ### Edits: reversal, symmetry -/

theorem Edits.append {s t s' t' : List α} {n n' : Nat} (h : Edits s t n) (h' : Edits s' t' n') :
    Edits (s ++ s') (t ++ t') (n + n') := by
  induction h with
  | nil => simpa using h'
  | keep _ ih => exact .keep ih
  | @replace a b s t n _ ih => rw [show n + 1 + n' = n + n' + 1 by omega]; exact .replace ih
  | @delete a s t n _ ih => rw [show n + 1 + n' = n + n' + 1 by omega]; exact .delete ih
  | @insert b s t n _ ih => rw [show n + 1 + n' = n + n' + 1 by omega]; exact .insert ih
  | @exchange a b s t n _ ih => rw [show n + 1 + n' = n + n' + 1 by omega]; exact .exchange ih

theorem Edits.reverse {s t : List α} {n : Nat} (h : Edits s t n) : Edits s.reverse t.reverse n := by
  induction h with
  | nil => exact .nil
  | @keep a s t n _ ih =>
    simp only [List.reverse_cons]
    exact ih.append (.keep .nil)
  | @replace a b s t n _ ih =>
    simp only [List.reverse_cons]
    exact ih.append (.replace .nil)
  | @delete a s t n _ ih =>
    simp only [List.reverse_cons]
    simpa using ih.append (.delete (a := a) .nil)
  | @insert b s t n _ ih =>
    simp only [List.reverse_cons]
    simpa using ih.append (.insert (b := b) .nil)
  | @exchange a b s t n _ ih =>
    simp only [List.reverse_cons, List.append_assoc]
    exact ih.append (.exchange .nil)

theorem Edits.symm {s t : List α} {n : Nat} (h : Edits s t n) : Edits t s n := by
  induction h with
  | nil => exact .nil
  | keep _ ih => exact .keep ih
  | replace _ ih => exact .replace ih
  | delete _ ih => exact .insert ih
  | insert _ ih => exact .delete ih
  | exchange _ ih => exact .exchange ih

theorem leastEdits_osa (s t : List α) : LeastEdits s t (osa s.reverse t.reverse) := by
  constructor
  · simpa using (edits_osa s.reverse t.reverse).reverse
  · intro m hm
    exact osa_le hm.reverse

theorem LeastEdits.unique {s t : List α} {n m : Nat} (h : LeastEdits s t n) (h' : LeastEdits s t m) : n = m :=
  le_antisymm (h.2 m h'.1) (h'.2 n h.1)

theorem LeastEdits.symm {s t : List α} {n : Nat} (h : LeastEdits s t n) : LeastEdits t s n :=
  ⟨h.1.symm, fun m hm => h.2 m hm.symm⟩

theorem edits_zero {s t : List α} {n : Nat} (h : Edits s t n) : n = 0 → s = t := by
  induction h with
  | nil => intro _; rfl
  | keep _ ih => intro e; rw [ih e]
  | replace => intro e; omega
  | delete => intro e; omega
  | insert => intro e; omega
  | exchange => intro e; omega

theorem edits_refl (s : List α) : Edits s s 0 := by
  induction s with
  | nil => exact .nil
  | cons a s ih => exact .keep ih

theorem edits_length {s t : List α} {n : Nat} (h : Edits s t n) : s.length ≤ t.length + n ∧ t.length ≤ s.length + n := by
  induction h with
  | nil => simp
  | keep _ ih => simp only [List.length_cons]; omega
  | replace _ ih => simp only [List.length_cons]; omega
  | delete _ ih => simp only [List.length_cons]; omega
  | insert _ ih => simp only [List.length_cons]; omega
  | exchange _ ih => simp only [List.length_cons]; omega

theorem edits_max (s t : List α) : Edits s t (max s.length t.length) := by
  induction s generalizing t with
  | nil => simpa using edits_insert_all t
  | cons a s ih =>
    cases t with
    | nil => simpa using edits_delete_all (a :: s)
    | cons b t =>
      simp only [List.length_cons]
      rw [show max (s.length + 1) (t.length + 1) = max s.length t.length + 1 by omega]
      exact .replace (ih t)

/-! ### The table -/

/-- A prefix, reversed. -/
def pre (s : List α) (k : Nat) : List α := (s.take k).reverse

theorem pre_succ {s : List α} {k : Nat} (h : k < s.length) : pre s (k + 1) = s[k] :: pre s k := by
  unfold pre
  rw [List.take_add_one, List.getElem?_eq_getElem h]
  simp

theorem pre_length {s : List α} {k : Nat} (h : k ≤ s.length) : (pre s k).length = k := by simp [pre, h]

/-- The table holds the recurrence in the first `i` rows, and up to column `j` in the next. -/
def TableInv (s t : List α) (i j : Nat) (d : DistTable) : Prop :=
  ∀ a b : Nat, a ≤ s.length → b ≤ t.length → (a = 0 ∨ b = 0 ∨ a ≤ i ∨ (a = i + 1 ∧ b ≤ j)) →
    d ((a : Int) - 1, (b : Int) - 1) = some (osa (pre s a) (pre t b))

theorem put_get (d : DistTable) (k : Int × Int) (v : Nat) : d.put k v k = some v := by simp [DistTable.put]

theorem put_ne (d : DistTable) {k k' : Int × Int} (v : Nat) (h : k' ≠ k) : d.put k v k' = d k' := by simp [DistTable.put, h]

theorem foldl_put_col (l : List Int) (d : DistTable) (k : Int × Int) :
    (l.foldl (fun d i => DistTable.put d (i, -1) (i + 1).toNat) d) k = if k.2 = -1 ∧ k.1 ∈ l then some (k.1 + 1).toNat else d k := by
  induction l generalizing d with
  | nil => simp
  | cons i l ih =>
    rw [List.foldl_cons, ih]
    obtain ⟨x, y⟩ := k
    simp only [DistTable.put, Prod.mk.injEq, List.mem_cons]
    by_cases h1 : y = -1
    · by_cases h2 : x = i
      · subst h2; simp [h1]
      · simp [h1, h2]
    · simp [h1]

theorem foldl_put_row (l : List Int) (d : DistTable) (k : Int × Int) :
    (l.foldl (fun d j => DistTable.put d (-1, j) (j + 1).toNat) d) k = if k.1 = -1 ∧ k.2 ∈ l then some (k.2 + 1).toNat else d k := by
  induction l generalizing d with
  | nil => simp
  | cons i l ih =>
    rw [List.foldl_cons, ih]
    obtain ⟨x, y⟩ := k
    simp only [DistTable.put, Prod.mk.injEq, List.mem_cons]
    by_cases h1 : x = -1
    · by_cases h2 : y = i
      · subst h2; simp [h1]
      · simp [h1, h2]
    · simp [h1]

theorem mem_rangeM1 {n : Nat} {x : Int} : x ∈ rangeM1 n ↔ -1 ≤ x ∧ x ≤ n := by
  unfold rangeM1
  simp only [List.mem_map, List.mem_range]
  constructor
  · rintro ⟨i, h, rfl⟩; omega
  · intro h; exact ⟨(x + 1).toNat, by omega, by omega⟩

theorem init_inv (s t : List α) : TableInv s t 0 0 (damlevInit s.length t.length) := by
  intro a b ha hb hab
  simp only [damlevInit, foldl_put_row, foldl_put_col, mem_rangeM1]
  by_cases h : a = 0
  · subst h
    rw [if_pos (by constructor <;> omega)]
    simp [pre, osa_nil_left, hb]
  · rw [if_neg (by omega)]
    have : b = 0 := by omega
    subst this
    rw [if_pos (by constructor <;> omega)]
    simp [pre, osa_nil_right, ha]

theorem table_get {s t : List α} {i j : Nat} {d : DistTable} (h : TableInv s t i j d) {a b : Nat} {x y : Int}
    (ex : x = (a : Int) - 1) (ey : y = (b : Int) - 1) (ha : a ≤ s.length) (hb : b ≤ t.length)
    (hab : a = 0 ∨ b = 0 ∨ a ≤ i ∨ (a = i + 1 ∧ b ≤ j)) : d.get (x, y) = .ok (osa (pre s a) (pre t b)) := by
  subst ex ey
  simp only [DistTable.get, h a b ha hb hab]

theorem put_inv {s t : List α} {i j : Nat} {d d' : DistTable} (h : TableInv s t i j d)
    (hd : ∀ k, k ≠ ((i : Int), (j : Int)) → d' k = d k)
    (hv : d' ((i : Int), (j : Int)) = some (osa (pre s (i + 1)) (pre t (j + 1)))) : TableInv s t i (j + 1) d' := by
  intro a b ha hb hab
  by_cases he : a = i + 1 ∧ b = j + 1
  · obtain ⟨rfl, rfl⟩ := he
    have e : (((i + 1 : Nat) : Int) - 1, ((j + 1 : Nat) : Int) - 1) = ((i : Int), (j : Int)) := by
      push_cast; simp
    rw [e, hv]
  · rw [hd]
    · exact h a b ha hb (by omega)
    · intro e
      simp only [Prod.mk.injEq] at e
      omega

theorem cell_inv {s t : List α} {i j : Nat} (hi : i < s.length) (hj : j < t.length) {d : DistTable} (h : TableInv s t i j d) :
    ∃ d', damlevCell s t i j d = .ok d' ∧ TableInv s t i (j + 1) d' := by
  have h1 := table_get h (a := i) (b := j + 1) (x := (i : Int) - 1) (y := (j : Int)) rfl (by push_cast; ring) (by omega) (by omega) (by omega)
  have h2 := table_get h (a := i + 1) (b := j) (x := (i : Int)) (y := (j : Int) - 1) (by push_cast; ring) rfl (by omega) (by omega) (by omega)
  have h3 := table_get h (a := i) (b := j) (x := (i : Int) - 1) (y := (j : Int) - 1) rfl rfl (by omega) (by omega) (by omega)
  have ea := pyIndex_nat s i _ (List.getElem?_eq_getElem hi)
  have eb := pyIndex_nat t j _ (List.getElem?_eq_getElem hj)
  have hpi := pre_succ hi
  have hpj := pre_succ hj
  have ho3 : min (min (osa (pre s i) (pre t (j + 1)) + 1) (osa (pre s (i + 1)) (pre t j) + 1))
      (osa (pre s i) (pre t j) + if s[i] = t[j] then 0 else 1) = osa3 s[i] t[j] (pre s i) (pre t j) := by
    rw [hpi, hpj]; rfl
  by_cases hz : i ≠ 0 ∧ j ≠ 0
  · obtain ⟨i', rfl⟩ : ∃ k, i = k + 1 := ⟨i - 1, by omega⟩
    obtain ⟨j', rfl⟩ : ∃ k, j = k + 1 := ⟨j - 1, by omega⟩
    have eb' : pyIndex t (((j' + 1 : Nat) : Int) - 1) = .ok t[j'] := by
      have := pyIndex_nat t j' _ (List.getElem?_eq_getElem (by omega))
      rw [← this]; congr 1; push_cast; ring
    have ea' : pyIndex s (((i' + 1 : Nat) : Int) - 1) = .ok s[i'] := by
      have := pyIndex_nat s i' _ (List.getElem?_eq_getElem (by omega))
      rw [← this]; congr 1; push_cast; ring
    have hpi' := pre_succ (s := s) (k := i') (by omega)
    have hpj' := pre_succ (s := t) (k := j') (by omega)
    have hval : osa (pre s (i' + 1 + 1)) (pre t (j' + 1 + 1)) =
        if s[i' + 1] = t[j'] ∧ s[i'] = t[j' + 1] then min (osa3 s[i' + 1] t[j' + 1] (pre s (i' + 1)) (pre t (j' + 1)))
          (osa (pre s i') (pre t j') + if s[i' + 1] = t[j' + 1] then 0 else 1)
        else osa3 s[i' + 1] t[j' + 1] (pre s (i' + 1)) (pre t (j' + 1)) := by
      rw [hpi, hpj, hpi', hpj', osa_cons2]
    simp only [damlevCell, ea, eb, h1, h2, h3, bind, Except.bind, if_pos hz, eb', ea', ho3]
    by_cases c1 : s[i' + 1] = t[j']
    · by_cases c2 : s[i'] = t[j' + 1]
      · have h4 : (d.put (((i' + 1 : Nat) : Int), ((j' + 1 : Nat) : Int)) (osa3 s[i' + 1] t[j' + 1] (pre s (i' + 1)) (pre t (j' + 1)))).get
            (((i' + 1 : Nat) : Int) - 2, ((j' + 1 : Nat) : Int) - 2) = .ok (osa (pre s i') (pre t j')) := by
          have e := table_get h (a := i') (b := j') (x := ((i' + 1 : Nat) : Int) - 2) (y := ((j' + 1 : Nat) : Int) - 2)
            (by push_cast; ring) (by push_cast; ring) (by omega) (by omega) (by omega)
          rw [← e]
          simp only [DistTable.get]
          rw [put_ne]
          intro e
          simp only [Prod.mk.injEq] at e
          omega
        have h5 : (d.put (((i' + 1 : Nat) : Int), ((j' + 1 : Nat) : Int)) (osa3 s[i' + 1] t[j' + 1] (pre s (i' + 1)) (pre t (j' + 1)))).get
            (((i' + 1 : Nat) : Int), ((j' + 1 : Nat) : Int)) = .ok (osa3 s[i' + 1] t[j' + 1] (pre s (i' + 1)) (pre t (j' + 1))) := by
          simp only [DistTable.get, put_get]
        rw [if_pos c1, if_pos c2, h4, h5]
        refine ⟨_, rfl, put_inv h ?_ ?_⟩
        · intro k hk; rw [put_ne _ _ hk, put_ne _ _ hk]
        · rw [put_get, hval, if_pos (show s[i' + 1] = t[j'] ∧ s[i'] = t[j' + 1] from ⟨c1, c2⟩)]
      · rw [if_pos c1, if_neg c2]
        refine ⟨_, rfl, put_inv h ?_ ?_⟩
        · intro k hk; rw [put_ne _ _ hk]
        · rw [put_get, hval, if_neg (fun c => c2 c.2)]
    · rw [if_neg c1]
      refine ⟨_, rfl, put_inv h ?_ ?_⟩
      · intro k hk; rw [put_ne _ _ hk]
      · rw [put_get, hval, if_neg (fun c => c1 c.1)]
  · simp only [damlevCell, ea, eb, h1, h2, h3, bind, Except.bind, if_neg hz, ho3]
    refine ⟨_, rfl, put_inv h ?_ ?_⟩
    · intro k hk; rw [put_ne _ _ hk]
    · rw [put_get, hpi, hpj]
      congr 1
      by_cases h0 : i = 0
      · subst h0
        have : pre s 0 = [] := by simp [pre]
        rw [this, osa_single_cons]
      · have h0' : j = 0 := by omega
        subst h0'
        have : pre t 0 = [] := by simp [pre]
        rw [this, osa_cons_single]

theorem row_inv {s t : List α} {i : Nat} (hi : i < s.length) {d : DistTable} (h : TableInv s t i 0 d) (k : Nat) (hk : k ≤ t.length) :
    ∃ d', (List.range k).foldlM (fun d j => damlevCell s t i j d) d = .ok d' ∧ TableInv s t i k d' := by
  induction k with
  | zero => exact ⟨d, rfl, h⟩
  | succ k ih =>
    obtain ⟨d1, e1, i1⟩ := ih (by omega)
    obtain ⟨d2, e2, i2⟩ := cell_inv hi (show k < t.length by omega) i1
    refine ⟨d2, ?_, i2⟩
    rw [List.range_succ, List.foldlM_append, e1]
    simp only [bind, Except.bind, List.foldlM_cons, List.foldlM_nil, e2]
    rfl

theorem rows_inv {s t : List α} {d : DistTable} (h : TableInv s t 0 0 d) (k : Nat) (hk : k ≤ s.length) :
    ∃ d', (List.range k).foldlM (fun d i => (List.range t.length).foldlM (fun d j => damlevCell s t i j d) d) d = .ok d' ∧
      TableInv s t k 0 d' := by
  induction k with
  | zero => exact ⟨d, rfl, h⟩
  | succ k ih =>
    obtain ⟨d1, e1, i1⟩ := ih (by omega)
    obtain ⟨d2, e2, i2⟩ := row_inv (show k < s.length by omega) i1 t.length (le_refl _)
    refine ⟨d2, ?_, ?_⟩
    · rw [List.range_succ, List.foldlM_append, e1]
      simp only [bind, Except.bind, List.foldlM_cons, List.foldlM_nil, e2]
      rfl
    · intro a b ha hb hab
      exact i2 a b ha hb (by omega)

theorem damlev_eq (s t : List α) : damlev s t = .ok (osa s.reverse t.reverse) := by
  obtain ⟨d, e, i⟩ := rows_inv (init_inv s t) s.length (le_refl _)
  simp only [damlev, e, bind, Except.bind]
  rw [table_get i rfl rfl (le_refl _) (le_refl _) (by omega)]
  simp [pre]

theorem damlev_least (s t : List α) : ∃ n, damlev s t = .ok n ∧ LeastEdits s t n :=
  ⟨_, damlev_eq s t, leastEdits_osa s t⟩

/-! ### The weak triangle inequality -/

/-- Edits without exchanges. -/
inductive Lev : List α → List α → Nat → Prop
  | nil : Lev [] [] 0
  | keep {a s t n} : Lev s t n → Lev (a :: s) (a :: t) n
  | replace {a b s t n} : Lev s t n → Lev (a :: s) (b :: t) (n + 1)
  | delete {a s t n} : Lev s t n → Lev (a :: s) t (n + 1)
  | insert {b s t n} : Lev s t n → Lev s (b :: t) (n + 1)

theorem Lev.edits {s t : List α} {n : Nat} (h : Lev s t n) : Edits s t n := by
  induction h with
  | nil => exact .nil
  | keep _ ih => exact .keep ih
  | replace _ ih => exact .replace ih
  | delete _ ih => exact .delete ih
  | insert _ ih => exact .insert ih

theorem Edits.lev {s t : List α} {n : Nat} (h : Edits s t n) : ∃ m ≤ 2 * n, Lev s t m := by
  induction h with
  | nil => exact ⟨0, by omega, .nil⟩
  | keep _ ih => obtain ⟨m, h1, h2⟩ := ih; exact ⟨m, h1, .keep h2⟩
  | replace _ ih => obtain ⟨m, h1, h2⟩ := ih; exact ⟨m + 1, by omega, .replace h2⟩
  | delete _ ih => obtain ⟨m, h1, h2⟩ := ih; exact ⟨m + 1, by omega, .delete h2⟩
  | insert _ ih => obtain ⟨m, h1, h2⟩ := ih; exact ⟨m + 1, by omega, .insert h2⟩
  | exchange _ ih => obtain ⟨m, h1, h2⟩ := ih; exact ⟨m + 2, by omega, .replace (.replace h2)⟩

theorem Lev.trans {s t u : List α} {n m : Nat} (h : Lev s t n) (h' : Lev t u m) : ∃ k ≤ n + m, Lev s u k := by
  induction h generalizing u m with
  | nil => exact ⟨m, by omega, h'⟩
  | @keep a s t n _ ih =>
    generalize ht : a :: t = t' at h'
    induction h' with
    | nil => cases ht
    | keep h2 _ =>
      injection ht with e1 e2; subst e1 e2
      obtain ⟨k, hk, hl⟩ := ih h2
      exact ⟨k, hk, .keep hl⟩
    | replace h2 _ =>
      injection ht with e1 e2; subst e1 e2
      obtain ⟨k, hk, hl⟩ := ih h2
      exact ⟨k + 1, by omega, .replace hl⟩
    | delete h2 _ =>
      injection ht with e1 e2; subst e1 e2
      obtain ⟨k, hk, hl⟩ := ih h2
      exact ⟨k + 1, by omega, .delete hl⟩
    | insert h2 ih2 =>
      obtain ⟨k, hk, hl⟩ := ih2 ht
      exact ⟨k + 1, by omega, .insert hl⟩
  | @replace a b s t n _ ih =>
    generalize ht : b :: t = t' at h'
    induction h' with
    | nil => cases ht
    | keep h2 _ =>
      injection ht with e1 e2; subst e1 e2
      obtain ⟨k, hk, hl⟩ := ih h2
      exact ⟨k + 1, by omega, .replace hl⟩
    | replace h2 _ =>
      injection ht with e1 e2; subst e1 e2
      obtain ⟨k, hk, hl⟩ := ih h2
      exact ⟨k + 1, by omega, .replace hl⟩
    | delete h2 _ =>
      injection ht with e1 e2; subst e1 e2
      obtain ⟨k, hk, hl⟩ := ih h2
      exact ⟨k + 1, by omega, .delete hl⟩
    | insert h2 ih2 =>
      obtain ⟨k, hk, hl⟩ := ih2 ht
      exact ⟨k + 1, by omega, .insert hl⟩
  | @delete a s t n _ ih =>
    obtain ⟨k, hk, hl⟩ := ih h'
    exact ⟨k + 1, by omega, .delete hl⟩
  | @insert b s t n _ ih =>
    generalize ht : b :: t = t' at h'
    induction h' with
    | nil => cases ht
    | keep h2 _ =>
      injection ht with e1 e2; subst e1 e2
      obtain ⟨k, hk, hl⟩ := ih h2
      exact ⟨k + 1, by omega, .insert hl⟩
    | replace h2 _ =>
      injection ht with e1 e2; subst e1 e2
      obtain ⟨k, hk, hl⟩ := ih h2
      exact ⟨k + 1, by omega, .insert hl⟩
    | delete h2 _ =>
      injection ht with e1 e2; subst e1 e2
      obtain ⟨k, hk, hl⟩ := ih h2
      exact ⟨k, by omega, hl⟩
    | insert h2 ih2 =>
      obtain ⟨k, hk, hl⟩ := ih2 ht
      exact ⟨k + 1, by omega, .insert hl⟩

end

/-! ### `jaro` -/

theorem jaroScan_ok {s1 s2 : List Char} {n : Nat} (h1 : s1.length = n) (h2 : s2.length = n) (is : List Nat) (his : ∀ i ∈ is, i < n)
    (m : Nat) (p : List Int) : ∃ m' p', jaroScan s1 s2 n is m p = .ok (m + m', p ++ p') ∧ m' ≤ is.length ∧ p'.length ≤ m' := by
  induction is generalizing m p with
  | nil => exact ⟨0, [], by simp [jaroScan], by simp, by simp⟩
  | cons i is ih =>
    have hi := his i (by simp)
    have ih := fun m p => ih (fun j hj => his j (by simp [hj])) m p
    have ea := pyIndex_nat s1 i _ (List.getElem?_eq_getElem (by omega))
    have eb := pyIndex_nat s2 i _ (List.getElem?_eq_getElem (by omega))
    simp only [jaroScan, ea, eb, bind, Except.bind]
    split
    · obtain ⟨m', p', e, l1, l2⟩ := ih (m + 1) p
      exact ⟨m' + 1, p', by rw [e, show m + 1 + m' = m + (m' + 1) by omega], by simp; omega, by omega⟩
    · split
      · obtain ⟨m', p', e, l1, l2⟩ := ih (m + 1) (p ++ [pyFind s2 s1[i] (max 0 (i - (n / 2 - 1))) (min n (i + (n / 2 - 1) + 1))])
        refine ⟨m' + 1, [pyFind s2 s1[i] (max 0 (i - (n / 2 - 1))) (min n (i + (n / 2 - 1) + 1))] ++ p', ?_, ?_, ?_⟩
        · rw [e, show m + 1 + m' = m + (m' + 1) by omega, List.append_assoc]
        · simp; omega
        · simp; omega
      · obtain ⟨m', p', e, l1, l2⟩ := ih m p
        exact ⟨m', p', e, by simp; omega, l2⟩

theorem jaroScan_same {s : List Char} {n : Nat} (h1 : s.length = n) (is : List Nat) (his : ∀ i ∈ is, i < n)
    (m : Nat) (p : List Int) : jaroScan s s n is m p = .ok (m + is.length, p) := by
  induction is generalizing m p with
  | nil => simp [jaroScan]
  | cons i is ih =>
    have hi := his i (by simp)
    have ea := pyIndex_nat s i _ (List.getElem?_eq_getElem (by omega))
    simp only [jaroScan, ea, bind, Except.bind, if_true]
    rw [ih (fun j hj => his j (by simp [hj]))]
    simp only [List.length_cons]
    rw [show m + 1 + is.length = m + (is.length + 1) by omega]

theorem jaroTranspositions_le (p : List Int) : jaroTranspositions p ≤ p.length := by
  unfold jaroTranspositions
  suffices h : ∀ s : Nat × Int, (p.foldl (fun (s : Nat × Int) f => if f < s.2 then (s.1 + 1, s.2) else (s.1, f)) s).1 ≤ s.1 + p.length by
    simpa using h (0, 0)
  induction p with
  | nil => intro s; simp
  | cons f p ih =>
    intro s
    rw [List.foldl_cons]
    refine le_trans (ih _) ?_
    split <;> simp <;> omega

theorem padStars_length {s : List Char} {n : Nat} (h : s.length ≤ n) : (padStars s n).length = n := by
  simp [padStars]; omega

/-- The value of `jaro`, for non-empty strings. -/
theorem jaro_bounds {s t : List Char} (hs : s ≠ []) (ht : t ≠ []) : ∃ j, jaro s t = .ok j ∧ 0 ≤ j ∧
    j ≤ (2 + (max s.length t.length : ℚ) / (min s.length t.length : ℚ)) / 3 := by
  have hs' : 0 < s.length := List.length_pos_of_ne_nil hs
  have ht' : 0 < t.length := List.length_pos_of_ne_nil ht
  have hsq : (0 : ℚ) < s.length := by exact_mod_cast hs'
  have htq : (0 : ℚ) < t.length := by exact_mod_cast ht'
  obtain ⟨m, p, e, hm, hp⟩ := jaroScan_ok (padStars_length (s := s) (n := max s.length t.length) (le_max_left _ _))
    (padStars_length (s := t) (n := max s.length t.length) (le_max_right _ _)) (List.range (max s.length t.length))
    (by simp) 0 []
  simp only [Nat.zero_add, List.nil_append, List.length_range] at e hm
  simp only [jaro, e, bind, Except.bind]
  by_cases hm0 : m = 0
  · rw [if_pos hm0]
    refine ⟨0, rfl, le_refl _, ?_⟩
    positivity
  · rw [if_neg hm0]
    have hmq : (0 : ℚ) < m := by exact_mod_cast Nat.pos_of_ne_zero hm0
    simp only [pyDiv, if_neg hsq.ne', if_neg htq.ne', if_neg hmq.ne']
    have ht := le_trans (jaroTranspositions_le p) hp
    have htq' : (jaroTranspositions p : ℚ) ≤ m := by exact_mod_cast ht
    have h3 : ((m : ℚ) - jaroTranspositions p) / m ≤ 1 := by
      rw [div_le_one hmq]
      have : (0 : ℚ) ≤ jaroTranspositions p := by positivity
      linarith
    have h30 : 0 ≤ ((m : ℚ) - jaroTranspositions p) / m := div_nonneg (by linarith) hmq.le
    have hmm : (m : ℚ) ≤ max (s.length : ℚ) t.length := by exact_mod_cast hm
    refine ⟨_, rfl, by positivity, ?_⟩
    have key : (m : ℚ) / s.length + m / t.length ≤ 1 + (max s.length t.length : ℚ) / (min s.length t.length : ℚ) := by
      rcases le_total s.length t.length with h | h
      · have h' : (s.length : ℚ) ≤ t.length := by exact_mod_cast h
        rw [max_eq_right h'] at hmm ⊢
        rw [min_eq_left h']
        have a1 : (m : ℚ) / t.length ≤ 1 := by rw [div_le_one htq]; exact hmm
        have a2 : (m : ℚ) / s.length ≤ (t.length : ℚ) / s.length := by gcongr
        linarith
      · have h' : (t.length : ℚ) ≤ s.length := by exact_mod_cast h
        rw [max_eq_left h'] at hmm ⊢
        rw [min_eq_right h']
        have a1 : (m : ℚ) / s.length ≤ 1 := by rw [div_le_one hsq]; exact hmm
        have a2 : (m : ℚ) / t.length ≤ (s.length : ℚ) / t.length := by gcongr
        linarith
    linarith

theorem jaro_same {s : List Char} (hs : s ≠ []) : jaro s s = .ok 1 := by
  have hs' : 0 < s.length := List.length_pos_of_ne_nil hs
  have hsq : (0 : ℚ) < s.length := by exact_mod_cast hs'
  have hp : padStars s s.length = s := by simp [padStars]
  simp only [jaro, max_self, hp, jaroScan_same (s := s) rfl (List.range s.length) (by simp), bind, Except.bind, List.length_range,
    Nat.zero_add, if_neg hs'.ne', pyDiv, if_neg hsq.ne']
  have : jaroTranspositions [] = 0 := rfl
  rw [this]
  simp only [pure, Except.pure, Nat.cast_zero, sub_zero, div_self hsq.ne']
  norm_num

theorem commonPrefix_le (s t : List Char) : commonPrefix s t ≤ 4 := by
  unfold commonPrefix
  refine le_trans (List.takeWhile_sublist _).length_le ?_
  simp

theorem jaroWinkler_of {s t : List Char} {j : ℚ} (h : jaro s t = .ok j) :
    jaroWinkler s t = .ok (j + (commonPrefix s t : ℚ) * (1 / 10) * (1 - j)) := by
  simp only [jaroWinkler, h, bind, Except.bind, pure, Except.pure]

/-! ### `strerr` and `mapping` -/

theorem strerr_ok {s t : List Char} (h : s ≠ [] ∨ t ≠ []) : ∃ e, strerr s t = .ok e ∧ StrErr s t e := by
  obtain ⟨n, e, hn⟩ := damlev_least s t
  have hl : s.length + t.length ≠ 0 := by
    rcases h with h | h
    · have := List.length_pos_of_ne_nil h; omega
    · have := List.length_pos_of_ne_nil h; omega
  simp only [strerr, e, bind, Except.bind, if_neg hl]
  refine ⟨_, rfl, n, hn, ?_⟩
  push_cast
  rfl

theorem StrErr.unique {s t : List Char} {e e' : ℚ} (h : StrErr s t e) (h' : StrErr s t e') : e = e' := by
  obtain ⟨n, hn, rfl⟩ := h
  obtain ⟨n', hn', rfl⟩ := h'
  rw [hn.unique hn']

theorem StrErr.bounds {s t : List Char} {e : ℚ} (h : StrErr s t e) : 0 ≤ e ∧ e ≤ 2 := by
  obtain ⟨n, hn, rfl⟩ := h
  refine ⟨by positivity, ?_⟩
  have hm := hn.2 _ (edits_max s t)
  rcases Nat.eq_zero_or_pos (s.length + t.length) with h0 | h0
  · have : ((s.length : ℚ) + t.length) = 0 := by exact_mod_cast h0
    rw [this, div_zero]; norm_num
  · have : (0 : ℚ) < (s.length : ℚ) + t.length := by exact_mod_cast h0
    rw [div_le_iff₀ this]
    have h2 : n ≤ s.length + t.length := le_trans hm (by omega)
    have : (n : ℚ) ≤ (s.length : ℚ) + t.length := by exact_mod_cast h2
    linarith

theorem argminLoop_spec (all : List ℚ) (best : ℚ) (bi i : Nat) (xs : List ℚ) (hx : all.drop i = xs)
    (hb : all[bi]? = some best) (hbi : bi < i) (hlt : ∀ j < bi, ∀ x, all[j]? = some x → best < x)
    (hle : ∀ j < i, ∀ x, all[j]? = some x → best ≤ x) :
    ∃ v, all[argminLoop best bi i xs]? = some v ∧ (∀ j < argminLoop best bi i xs, ∀ x, all[j]? = some x → v < x) ∧
      ∀ j : Nat, ∀ x, all[j]? = some x → v ≤ x := by
  induction xs generalizing best bi i with
  | nil =>
    refine ⟨best, hb, hlt, fun j x hj => hle j ?_ x hj⟩
    have h1 : all.length ≤ i := List.drop_eq_nil_iff.mp hx
    have h2 : j < all.length := (List.getElem?_eq_some_iff.mp hj).1
    omega
  | cons y xs ih =>
    have hi : all[i]? = some y := by
      have := congrArg (fun l => l[0]?) hx
      simpa using this
    have hd : all.drop (i + 1) = xs := by
      have := congrArg (List.drop 1) hx
      simpa [List.drop_drop] using this
    simp only [argminLoop]
    split
    · rename_i hyb
      refine ih y i (i + 1) hd hi (by omega) (fun j hj x hx => lt_of_lt_of_le hyb (hle j hj x hx)) ?_
      intro j hj x hx'
      rcases Nat.lt_succ_iff_lt_or_eq.mp hj with h | h
      · exact le_of_lt (lt_of_lt_of_le hyb (hle j h x hx'))
      · subst h; rw [hi] at hx'; cases hx'; exact le_refl _
    · rename_i hyb
      refine ih best bi (i + 1) hd hb (by omega) hlt ?_
      intro j hj x hx'
      rcases Nat.lt_succ_iff_lt_or_eq.mp hj with h | h
      · exact hle j h x hx'
      · subst h; rw [hi] at hx'; cases hx'; exact not_lt.mp hyb

theorem argmin_spec {all : List ℚ} (h : all ≠ []) : ∃ i v, argmin all = .ok i ∧ all[i]? = some v ∧
    (∀ j < i, ∀ x, all[j]? = some x → v < x) ∧ ∀ j : Nat, ∀ x, all[j]? = some x → v ≤ x := by
  cases all with
  | nil => exact absurd rfl h
  | cons x xs =>
    obtain ⟨v, h1, h2, h3⟩ := argminLoop_spec (x :: xs) x 0 1 xs rfl rfl (by omega) (by intro j hj; omega)
      (by intro j hj y hy; have : j = 0 := by omega
          subst this; simp at hy; rw [hy])
    exact ⟨_, v, rfl, h1, h2, h3⟩

theorem bestMatch_ok {values : List (List Char)} {key : List Char} (hv : values ≠ []) (hne : ∀ v ∈ values, v ≠ []) :
    ∃ m, bestMatch values key = .ok m ∧ m.key = key ∧ FirstBest values key m.value ∧ StrErr key m.value (1 - m.score) := by
  have hex : ∃ ds, values.mapM (fun v => strerr key v) = .ok ds := by
    clear hv
    induction values with
    | nil => exact ⟨[], rfl⟩
    | cons v vs ih =>
      obtain ⟨ds, e⟩ := ih (fun v hv => hne v (by simp [hv]))
      obtain ⟨d, e', _⟩ := strerr_ok (s := key) (t := v) (Or.inr (hne v (by simp)))
      exact ⟨d :: ds, by rw [List.mapM_cons, e', e]; rfl⟩
  obtain ⟨ds, e⟩ := hex
  have hf := Py.mapM_ok.mp e
  have hlen := hf.length_eq
  have hds : ds ≠ [] := by
    intro h; subst h
    exact hv (List.length_eq_zero_iff.mp hlen)
  have hget : ∀ (j : Nat) v d, values[j]? = some v → ds[j]? = some d → StrErr key v d := by
    intro j v d h1 h2
    obtain ⟨l1, rfl⟩ := List.getElem?_eq_some_iff.mp h1
    obtain ⟨l2, rfl⟩ := List.getElem?_eq_some_iff.mp h2
    have h3 := (List.forall₂_iff_get.mp hf).2 j l1 l2
    obtain ⟨d', e', hd'⟩ := strerr_ok (s := key) (t := values[j]) (Or.inr (hne _ (List.getElem_mem _)))
    simp only [List.get_eq_getElem] at h3
    rw [h3] at e'
    cases e'
    exact hd'
  obtain ⟨i, v, e2, hv1, hv2, hv3⟩ := argmin_spec hds
  have hil : i < ds.length := (List.getElem?_eq_some_iff.mp hv1).1
  have hval : values[i]? = some values[i] := List.getElem?_eq_getElem (by omega)
  have ei := pyIndex_nat values i _ hval
  have ed := pyIndex_nat ds i _ hv1
  refine ⟨⟨key, values[i], 1 - v⟩, ?_, rfl, ?_, ?_⟩
  · simp only [bestMatch, e, e2, bind, Except.bind, ei, ed, pure, Except.pure]
  · refine ⟨i, v, hval, hget i _ _ hval hv1, ?_, ?_⟩
    · intro j hj w hw d hd
      have hjl : j < ds.length := by omega
      have h1 := List.getElem?_eq_getElem hjl
      rw [hd.unique (hget j _ _ hw h1)]
      exact hv2 j hj _ h1
    · intro w hw d hd
      obtain ⟨j, hj⟩ := List.mem_iff_getElem?.mp hw
      have hjl : j < ds.length := by
        have := (List.getElem?_eq_some_iff.mp hj).1; omega
      have h1 := List.getElem?_eq_getElem hjl
      rw [hd.unique (hget j _ _ hj h1)]
      exact hv3 j _ h1
  · simpa using hget i _ _ hval hv1

theorem mapM_exists_such {α β : Type} {f : α → Py β} {P : α → β → Prop} (l : List α) (h : ∀ a ∈ l, ∃ b, f a = .ok b ∧ P a b) :
    ∃ bs, l.mapM f = .ok bs ∧ List.Forall₂ P l bs := by
  induction l with
  | nil => exact ⟨[], rfl, .nil⟩
  | cons a l ih =>
    obtain ⟨b, e, hb⟩ := h a (by simp)
    obtain ⟨bs, e', hbs⟩ := ih (fun a ha => h a (by simp [ha]))
    exact ⟨b :: bs, by rw [List.mapM_cons, e, e']; rfl, .cons hb hbs⟩

end Coral
