import Verif.Model.BufferStr
import Verif.Proofs.Buffer

/-!
# The text of a buffer: C162
-/
namespace Coral
namespace Buffer
variable {α : Type}

/-- What a queue holds after a sequence of calls. -/
def queueAfter (n : Nat) (l : List α) : List (BufOp α) → List α
  | [] => l
  | op :: ops => queueAfter n (queueStep n l op).2 ops

theorem after_rep {b : Buffer α} {l : List α} (h : Rep b l) (ops : List (BufOp α)) : Rep (b.after ops) (queueAfter b.n l ops) := by
  induction ops generalizing b l with
  | nil => exact h
  | cons op ops ih =>
    obtain ⟨-, h2, h3⟩ := exec_rep h op
    have := ih h3
    rw [h2] at this
    exact this

theorem strLoop_det {b : Buffer α} {i : Nat} {seq : List (Option α)} {r r' : Py (List (Option α))} (h : StrLoop b i seq r) (h' : StrLoop b i seq r') : r = r' := by
  induction h with
  | done hi =>
    cases h' with
    | done _ => rfl
    | step hn _ _ => exact absurd hi hn
    | raise hn _ => exact absurd hi hn
  | step hn ho _ ih =>
    cases h' with
    | done hi => exact absurd hi hn
    | step _ ho' h' => rw [ho] at ho'; cases ho'; exact ih h'
    | raise _ he => rw [ho] at he; cases he
  | raise hn he =>
    cases h' with
    | done hi => exact absurd hi hn
    | step _ ho _ => rw [he] at ho; cases ho
    | raise _ he' => rw [he] at he'; cases he'; rfl

theorem strLoop_rep {b : Buffer α} {l : List α} (h : Rep b l) (k : Nat) : ∀ (j : Nat) (seq : List (Option α)), j + k = l.length →
    StrLoop b ((b.s + j) % (2 * b.n)) seq (.ok (seq ++ (l.drop j).map some)) := by
  have hn := h.npos
  have hl := h.hl
  induction k with
  | zero =>
    intro j seq hj
    rw [List.drop_of_length_le (by omega), List.map_nil, List.append_nil]
    exact .done (by rw [h.he, ← hj]; simp)
  | succ k ih =>
    intro j seq hj
    have hjl : j < l.length := by omega
    have hne : (b.s + j) % (2 * b.n) ≠ b.e := by
      rw [h.he]
      intro he
      have := Nat.ModEq.add_left_cancel' b.s he
      rw [Nat.ModEq, Nat.mod_eq_of_lt (by omega)] at this
      rcases Nat.lt_or_ge l.length (2 * b.n) with h1 | h1
      · rw [Nat.mod_eq_of_lt h1] at this; omega
      · omega
    have hidx : pyIndex b.buf (((b.s + j) % (2 * b.n) &&& b.m1 : Nat) : Int) = .ok (some l[j]) := by
      rw [h.and_m1, Nat.mod_mul_left_mod]
      exact pyIndex_nat _ _ _ (h.slots j hjl)
    refine .step hne hidx ?_
    have := ih (j + 1) (seq ++ [some l[j]]) (by omega)
    rw [List.append_assoc, List.singleton_append, ← List.map_cons (f := some), ← List.drop_eq_getElem_cons hjl] at this
    have e : b.inc ((b.s + j) % (2 * b.n)) = (b.s + (j + 1)) % (2 * b.n) := by
      rw [inc, h.and_m2, Nat.mod_add_mod]
      rfl
    rw [e]
    exact this

/-- C162: after any calls on a new buffer of capacity `2^j`, `str` ends and shows what a queue would hold, oldest first, in angle brackets. -/
theorem C162_shows (j : Nat) {b : Buffer α} (hb : Buffer.init (2 ^ j) = .ok b) (ops : List (BufOp α)) (str : Option α → Str) (res : Py Str) :
    Shows str (b.after ops) res ↔ res = .ok ('<' :: pyJoin ' ' ((queueAfter (2 ^ j) [] ops).map fun o => str (some o)) ++ ['>']) := by
  obtain ⟨b', h1, h2, h3⟩ := init_rep (α := α) (n := 2 ^ j) ⟨j, rfl⟩
  rw [hb] at h1
  cases h1
  have hr := after_rep h3 ops
  rw [h2] at hr
  generalize b.after ops = c at hr ⊢
  generalize queueAfter (2 ^ j) [] ops = l at hr ⊢
  have hloop := strLoop_rep hr l.length 0 [] (by omega)
  rw [Nat.add_zero, Nat.mod_eq_of_lt hr.hs, List.drop_zero, List.nil_append] at hloop
  have hemp := hr.isempty_iff
  constructor
  · intro h
    cases h with
    | empty he =>
      rw [hemp, List.isEmpty_iff] at he
      subst he
      rfl
    | full he hl =>
      have := strLoop_det hloop hl
      cases this
      rw [List.map_map]
      rfl
    | raise he hl => cases strLoop_det hloop hl
  · rintro rfl
    cases hi : c.isempty with
    | true =>
      rw [hemp, List.isEmpty_iff] at hi
      subst hi
      exact .empty (by rw [hemp]; rfl)
    | false =>
      have := Shows.full (str := str) hi hloop
      rw [List.map_map] at this
      exact this

/-- A case: the buffer has wrapped around. -/
example : queueAfter 4 [] [.push 1, .push 2, .push 3, .shift, .push 4, .push 5, .push 6, .shift, .pop, .push 7] = [3, 4, 7] := by decide

end Buffer
end Coral
