import Verif.Proofs.Names
import Mathlib.Tactic.Linarith

/-!
# Edits one after the other against edits of separate places
-/
set_option linter.unusedSectionVars false

namespace Coral
section
variable {α : Type} [DecidableEq α]

/-- What a chain of edits leaves: letters kept, exchanged pairs, and pieces in which at least two thirds of the letters are paid for. -/
inductive Pieces : List α → List α → Nat → Prop
  | nil : Pieces [] [] 0
  | keep {a s t n} : Pieces s t n → Pieces (a :: s) (a :: t) n
  | exchange {a b s t n} : Pieces s t n → Pieces (a :: b :: s) (b :: a :: t) (n + 1)
  | piece {s t n} (x y : List α) (q : Nat) : 2 * x.length ≤ 3 * q → 2 * y.length ≤ 3 * q → x.length ≤ y.length + q →
      y.length ≤ x.length + q → Pieces s t n → Pieces (x ++ s) (y ++ t) (q + n)

theorem Pieces.piece' {s t : List α} {n m : Nat} (x y : List α) (q : Nat) (h1 : 2 * x.length ≤ 3 * q) (h2 : 2 * y.length ≤ 3 * q)
    (h3 : x.length ≤ y.length + q) (h4 : y.length ≤ x.length + q) (h : Pieces s t n) (e : m = q + n) : Pieces (x ++ s) (y ++ t) m := by
  subst e
  exact .piece x y q h1 h2 h3 h4 h

theorem Pieces.edits {s t : List α} {n : Nat} (h : Pieces s t n) : ∃ m, 2 * m ≤ 3 * n ∧ Edits s t m := by
  induction h with
  | nil => exact ⟨0, by omega, .nil⟩
  | keep _ ih => obtain ⟨m, h1, h2⟩ := ih; exact ⟨m, h1, .keep h2⟩
  | exchange _ ih => obtain ⟨m, h1, h2⟩ := ih; exact ⟨m + 1, by omega, .exchange h2⟩
  | piece x y q l1 l2 _ _ _ ih =>
    obtain ⟨m, h1, h2⟩ := ih
    exact ⟨max x.length y.length + m, by omega, (edits_max x y).append h2⟩

theorem Pieces.refl (s : List α) : Pieces s s 0 := by
  induction s with
  | nil => exact .nil
  | cons a s ih => exact .keep ih

/-- The first piece with a letter on the right: the letter kept, or a piece. -/
theorem Pieces.head {s t : List α} {n : Nat} (h : Pieces s t n) : ∀ b t0, t = b :: t0 →
    (∃ s1, s = b :: s1 ∧ Pieces s1 t0 n) ∨
    (∃ x s1 y t1 q n1, s = x ++ s1 ∧ t0 = y ++ t1 ∧ n = q + n1 ∧ Pieces s1 t1 n1 ∧ 2 * x.length ≤ 3 * q + 1 ∧
      2 * (y.length + 1) ≤ 3 * q + 1 ∧ x.length ≤ y.length + 1 + q ∧ y.length + 1 ≤ x.length + q) := by
  induction h with
  | nil => intro b t0 e; simp at e
  | keep h _ =>
    intro b t0 e
    obtain ⟨rfl, rfl⟩ := List.cons.inj e
    exact Or.inl ⟨_, rfl, h⟩
  | @exchange a c s t n h _ =>
    intro b t0 e
    obtain ⟨rfl, rfl⟩ := List.cons.inj e
    exact Or.inr ⟨[a, c], s, [a], t, 1, n, rfl, rfl, by omega, h, by simp, by simp, by simp, by simp⟩
  | @piece s t n x y q l1 l2 l3 l4 h ih =>
    intro b t0 e
    cases y with
    | nil =>
      simp only [List.nil_append] at e
      simp only [List.length_nil] at l3
      rcases ih b t0 e with ⟨s1, rfl, hs⟩ | ⟨x1, s1, y1, t1, q1, n1, rfl, rfl, rfl, hs, k1, k2, k3, k4⟩
      · by_cases hq : q = 0
        · have : x = [] := List.length_eq_zero_iff.mp (by omega)
          subst this hq
          exact Or.inl ⟨s1, rfl, by simpa using hs⟩
        · refine Or.inr ⟨x ++ [b], s1, [], t0, q, n, by simp, rfl, rfl, hs, ?_, ?_, ?_, ?_⟩ <;>
            simp only [List.length_append, List.length_cons, List.length_nil] <;> omega
      · have := List.length_append (as := x) (bs := x1)
        exact Or.inr ⟨x ++ x1, s1, y1, t1, q + q1, n1, by simp, rfl, by omega, hs, by omega, by omega, by omega, by omega⟩
    | cons c y =>
      obtain ⟨rfl, rfl⟩ := List.cons.inj e
      simp only [List.length_cons] at l2 l3 l4
      exact Or.inr ⟨x, s, y, t, q, n, rfl, rfl, rfl, h, by omega, by omega, by omega, by omega⟩

/-- Where an edit of two strings together takes place. -/
theorem OneEdit.split {y t z : List α} (h : OneEdit (y ++ t) z) : (∃ y', OneEdit y y' ∧ z = y' ++ t) ∨
    (∃ t', OneEdit t t' ∧ z = y ++ t') ∨ ∃ y0 a b t0, y = y0 ++ [a] ∧ t = b :: t0 ∧ z = y0 ++ b :: a :: t0 := by
  induction y generalizing z with
  | nil => exact Or.inr (Or.inl ⟨z, h, rfl⟩)
  | cons c y ih =>
    rw [List.cons_append] at h
    generalize hw : c :: (y ++ t) = w at h
    cases h with
    | @replace a b s =>
      obtain ⟨rfl, rfl⟩ := List.cons.inj hw
      exact Or.inl ⟨b :: y, .replace, rfl⟩
    | delete =>
      obtain ⟨rfl, rfl⟩ := List.cons.inj hw
      exact Or.inl ⟨y, .delete, rfl⟩
    | @insert b s =>
      subst hw
      exact Or.inl ⟨b :: c :: y, .insert, rfl⟩
    | @exchange a b s =>
      obtain ⟨rfl, e⟩ := List.cons.inj hw
      cases y with
      | nil =>
        rw [List.nil_append] at e
        subst e
        exact Or.inr (Or.inr ⟨[], c, b, s, rfl, rfl, rfl⟩)
      | cons d y =>
        obtain ⟨rfl, rfl⟩ := List.cons.inj e
        exact Or.inl ⟨d :: c :: y, .exchange, rfl⟩
    | @later a s t' h =>
      obtain ⟨rfl, rfl⟩ := List.cons.inj hw
      rcases ih h with ⟨y', h', rfl⟩ | ⟨t', h', rfl⟩ | ⟨y0, a, b, t0, rfl, rfl, rfl⟩
      · exact Or.inl ⟨c :: y', .later h', rfl⟩
      · exact Or.inr (Or.inl ⟨t', h', rfl⟩)
      · exact Or.inr (Or.inr ⟨c :: y0, a, b, t0, rfl, rfl, rfl⟩)

theorem OneEdit.length {s t : List α} (h : OneEdit s t) : t.length ≤ s.length + 1 ∧ s.length ≤ t.length + 1 := by
  induction h with
  | later _ ih => simp only [List.length_cons]; omega
  | _ => simp only [List.length_cons]; omega

/-- The edits of one letter. -/
theorem OneEdit.single {c : α} {y : List α} (h : OneEdit [c] y) : y.length ≤ 1 ∨ (∃ b, y = [b, c]) ∨ ∃ b, y = [c, b] := by
  generalize hw : [c] = w at h
  cases h with
  | replace => obtain ⟨rfl, rfl⟩ := List.cons.inj hw; exact Or.inl (by simp)
  | delete => obtain ⟨rfl, rfl⟩ := List.cons.inj hw; exact Or.inl (by simp)
  | insert => subst hw; exact Or.inr (Or.inl ⟨_, rfl⟩)
  | exchange => simp at hw
  | @later a s t h =>
    obtain ⟨rfl, rfl⟩ := List.cons.inj hw
    cases h with
    | insert => exact Or.inr (Or.inr ⟨_, rfl⟩)

/-- One more edit costs one more. -/
theorem Pieces.edit {s t u : List α} {n : Nat} (h : Pieces s t n) (he : OneEdit t u) : Pieces s u (n + 1) := by
  induction h generalizing u with
  | nil =>
    cases he with
    | @insert b _ => exact .piece' [] [b] 1 (by simp) (by simp) (by simp) (by simp) .nil rfl
  | @keep a s t n h ih =>
    rcases OneEdit.split (y := [a]) he with ⟨y', h', rfl⟩ | ⟨t', h', rfl⟩ | ⟨y0, a', b, t0, e1, rfl, rfl⟩
    · rcases h'.single with hl | ⟨b, rfl⟩ | ⟨b, rfl⟩
      · exact .piece' [a] y' 1 (by simp) (by omega) (by simp) (by simp; omega) h (by omega)
      · exact .piece' [] [b] 1 (by simp) (by simp) (by simp) (by simp) (.keep h) (by omega)
      · exact .keep (.piece' [] [b] 1 (by simp) (by simp) (by simp) (by simp) h (by omega))
    · exact .keep (ih h')
    · have : y0 = [] ∧ a' = a := by
        cases y0 with
        | nil => simpa using e1.symm
        | cons => simp at e1
      obtain ⟨rfl, rfl⟩ := this
      rcases h.head b t0 rfl with ⟨s1, rfl, hs⟩ | ⟨x, s1, y, t1, q, n1, rfl, rfl, rfl, hs, k1, k2, k3, k4⟩
      · exact .exchange hs
      · exact .piece' (a' :: x) (b :: a' :: y) (q + 1) (by simp; omega) (by simp; omega) (by simp; omega) (by simp; omega) hs (by omega)
  | @exchange a c s t n h ih =>
    rcases OneEdit.split (y := [c, a]) he with ⟨y', h', rfl⟩ | ⟨t', h', rfl⟩ | ⟨y0, a', b, t0, e1, rfl, rfl⟩
    · have := h'.length
      simp only [List.length_cons, List.length_nil] at this
      exact .piece' [a, c] y' 2 (by simp) (by omega) (by simp) (by simp; omega) h (by omega)
    · exact .exchange (ih h')
    · have : y0 = [c] ∧ a' = a := by
        cases y0 with
        | nil => simp at e1
        | cons d y0 =>
          cases y0 with
          | nil => simp at e1; exact ⟨by rw [e1.1], e1.2.symm⟩
          | cons => simp at e1
      obtain ⟨rfl, rfl⟩ := this
      rcases h.head b t0 rfl with ⟨s1, rfl, hs⟩ | ⟨x, s1, y, t1, q, n1, rfl, rfl, rfl, hs, k1, k2, k3, k4⟩
      · exact .piece' [a', c, b] [c, b, a'] 2 (by simp) (by simp) (by simp) (by simp) hs (by omega)
      · exact .piece' (a' :: c :: x) (c :: b :: a' :: y) (q + 2) (by simp; omega) (by simp; omega) (by simp; omega) (by simp; omega) hs (by omega)
  | @piece s t n x y q l1 l2 l3 l4 h ih =>
    rcases he.split with ⟨y', h', rfl⟩ | ⟨t', h', rfl⟩ | ⟨y0, a, b, t0, rfl, rfl, rfl⟩
    · have := h'.length
      exact .piece' x y' (q + 1) (by omega) (by omega) (by omega) (by omega) h (by omega)
    · exact .piece x y q l1 l2 l3 l4 (ih h')
    · simp only [List.length_append, List.length_cons, List.length_nil] at l2 l3 l4
      rcases h.head b t0 rfl with ⟨s1, rfl, hs⟩ | ⟨x1, s1, y1, t1, q1, n1, rfl, rfl, rfl, hs, k1, k2, k3, k4⟩
      · have := Pieces.piece' (m := q + n + 1) (x ++ [b]) (y0 ++ [b, a]) (q + 1) (by simp; omega) (by simp; omega) (by simp; omega) (by simp; omega) hs (by omega)
        simpa using this
      · have := Pieces.piece' (m := q + (q1 + n1) + 1) (x ++ x1) (y0 ++ b :: a :: y1) (q + q1 + 1) (by simp; omega) (by simp; omega) (by simp; omega)
          (by simp; omega) hs (by omega)
        simpa using this

theorem Pieces.chain {s t u : List α} {n m : Nat} (h : Pieces s t n) (hc : Chain t u m) : Pieces s u (n + m) := by
  induction hc generalizing n with
  | nil => exact h
  | @cons _ _ _ k he _ ih =>
    have := ih (h.edit he)
    rwa [show n + 1 + k = n + (k + 1) by omega] at this

theorem Chain.later {s t : List α} {n : Nat} (a : α) (h : Chain s t n) : Chain (a :: s) (a :: t) n := by
  induction h with
  | nil => exact .nil
  | cons he _ ih => exact .cons (.later he) ih

theorem Chain.trans {s t u : List α} {n m : Nat} (h : Chain s t n) (h' : Chain t u m) : Chain s u (n + m) := by
  induction h with
  | nil => simpa using h'
  | @cons _ _ _ k he _ ih =>
    have := Chain.cons he (ih h')
    rwa [show k + m + 1 = k + 1 + m by omega] at this

/-- Edits of separate places can be done one after the other. -/
theorem Edits.chain {s t : List α} {n : Nat} (h : Edits s t n) : Chain s t n := by
  induction h with
  | nil => exact .nil
  | keep _ ih => exact ih.later _
  | replace _ ih => exact .cons .replace (ih.later _)
  | delete _ ih => exact .cons .delete ih
  | insert _ ih => exact .cons .insert (ih.later _)
  | exchange _ ih => exact .cons .exchange ((ih.later _).later _)

/-- Edits one after the other can be replaced by half as many again of separate places. -/
theorem Chain.edits {s t : List α} {n : Nat} (h : Chain s t n) : ∃ m, 2 * m ≤ 3 * n ∧ Edits s t m := by
  have := ((Pieces.refl s).chain h).edits
  simpa using this

end
end Coral
