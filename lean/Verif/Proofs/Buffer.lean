import Verif.Spec.Buffer
import Mathlib.Data.Nat.Bitwise
import Mathlib.Data.Nat.ModEq
import Mathlib.Data.List.Basic

namespace Coral

theorem and_pred_two_pow (i j : Nat) : i &&& (2 ^ j - 1) = i % 2 ^ j := Nat.and_two_pow_sub_one_eq_mod i j

theorem xor_two_pow_lt {t j : Nat} (h : t < 2 ^ j) : t ^^^ 2 ^ j = t + 2 ^ j := by
  have hor : 2 ^ j + t = 2 ^ j ||| t := by
    have := Nat.two_pow_add_eq_or_of_lt h 1
    simpa using this
  rw [Nat.add_comm, hor]
  apply Nat.eq_of_testBit_eq
  intro i
  rw [Nat.testBit_xor, Nat.testBit_or]
  by_cases hi : i = j
  · subst hi
    rw [Nat.testBit_lt_two_pow h]
    simp
  · rw [Nat.testBit_two_pow_of_ne (Ne.symm hi)]
    simp

theorem xor_two_pow {s j : Nat} (h : s < 2 * 2 ^ j) : s ^^^ 2 ^ j = (s + 2 ^ j) % (2 * 2 ^ j) := by
  by_cases hs : s < 2 ^ j
  · rw [xor_two_pow_lt hs, Nat.mod_eq_of_lt (by omega)]
  · obtain ⟨t, rfl⟩ : ∃ t, s = t + 2 ^ j := ⟨s - 2 ^ j, by omega⟩
    rw [← xor_two_pow_lt (by omega : t < 2 ^ j), Nat.xor_assoc, Nat.xor_self, Nat.xor_zero,
      xor_two_pow_lt (by omega : t < 2 ^ j)]
    have : t + 2 ^ j + 2 ^ j = t + 2 * 2 ^ j := by omega
    rw [this, Nat.add_mod_right, Nat.mod_eq_of_lt (by omega)]

namespace Buffer
variable {α : Type}

/-- The buffer `b` holds the queue `l` (oldest first). -/
structure Rep (b : Buffer α) (l : List α) : Prop where
  pow : ∃ j, b.n = 2 ^ j
  len : b.buf.length = b.n
  hs : b.s < 2 * b.n
  hl : l.length ≤ b.n
  he : b.e = (b.s + l.length) % (2 * b.n)
  slots : ∀ i (h : i < l.length), b.buf[(b.s + i) % b.n]? = some (some l[i])

theorem Rep.npos {b : Buffer α} {l : List α} (h : Rep b l) : 0 < b.n := by
  obtain ⟨j, hj⟩ := h.pow
  rw [hj]; exact Nat.two_pow_pos j

theorem Rep.and_m1 {b : Buffer α} {l : List α} (h : Rep b l) (i : Nat) : i &&& b.m1 = i % b.n := by
  obtain ⟨j, hj⟩ := h.pow
  rw [m1, hj, and_pred_two_pow]

theorem Rep.and_m2 {b : Buffer α} {l : List α} (h : Rep b l) (i : Nat) : i &&& b.m2 = i % (2 * b.n) := by
  obtain ⟨j, hj⟩ := h.pow
  have : b.n <<< 1 = 2 ^ (j + 1) := by rw [hj, Nat.shiftLeft_eq, ← Nat.pow_add]
  rw [m2, this, and_pred_two_pow, hj, Nat.pow_succ, Nat.mul_comm]

theorem Rep.m2_eq {b : Buffer α} {l : List α} (_ : Rep b l) : b.m2 = 2 * b.n - 1 := by
  rw [m2, Nat.shiftLeft_eq]; omega

theorem mod_two_mul_cases {a n : Nat} (hn : 0 < n) (h : a < 4 * n) :
    a % (2 * n) = if a < 2 * n then a else a - 2 * n := by
  split
  · rw [Nat.mod_eq_of_lt ‹_›]
  · rw [Nat.mod_eq_sub_mod (by omega), Nat.mod_eq_of_lt (by omega)]

theorem Rep.isempty_iff {b : Buffer α} {l : List α} (h : Rep b l) : b.isempty = l.isEmpty := by
  have hn := h.npos
  have h1 := h.hs
  have h2 := h.hl
  have h3 := h.he
  rw [mod_two_mul_cases hn (by omega)] at h3
  rw [Bool.eq_iff_iff, isempty, beq_iff_eq, List.isEmpty_iff, ← List.length_eq_zero_iff]
  split at h3 <;> omega

theorem Rep.isfull_iff {b : Buffer α} {l : List α} (h : Rep b l) : b.isfull = (l.length == b.n) := by
  have hn := h.npos
  have h1 := h.hs
  have h2 := h.hl
  have h3 := h.he
  obtain ⟨j, hj⟩ := h.pow
  have hx : b.s ^^^ b.n = (b.s + b.n) % (2 * b.n) := by
    rw [hj]; exact xor_two_pow (by rw [← hj]; exact h1)
  rw [mod_two_mul_cases hn (by omega)] at h3 hx
  rw [Bool.eq_iff_iff, isfull, beq_iff_eq, beq_iff_eq, hx]
  split at h3 <;> split at hx <;> split <;> omega

theorem init_rep {n : Nat} (hn : ∃ j, n = 2 ^ j) :
    ∃ b : Buffer α, init n = .ok b ∧ b.n = n ∧ Rep b [] := by
  refine ⟨⟨n, List.replicate n none, 0, 0⟩, ?_, rfl, ?_⟩
  · obtain ⟨j, rfl⟩ := hn
    simp [init, pyAssert, and_pred_two_pow, bind, Except.bind, pure, Except.pure]
  · obtain ⟨j, rfl⟩ := hn
    have := Nat.two_pow_pos j
    constructor <;> simp [this]

theorem pyIndex_nat {β : Type} (l : List β) (i : Nat) (x : β) (h : l[i]? = some x) : pyIndex l (i : Int) = .ok x := by
  have : ¬ ((i : Int) < 0) := by omega
  simp [pyIndex, this, h]

theorem pySetItem_nat {β : Type} (l : List β) (i : Nat) (x : β) (h : i < l.length) :
    pySetItem l (i : Int) x = .ok (l.set i x) := by
  have : ¬ ((i : Int) < 0) := by omega
  simp [pySetItem, this, h]

theorem add_mod_ne {s i j n : Nat} (hi : i < n) (hj : j < n) (hij : i ≠ j) : (s + i) % n ≠ (s + j) % n := by
  intro h
  have := Nat.ModEq.add_left_cancel' s (show Nat.ModEq n (s + i) (s + j) from h)
  rw [Nat.ModEq, Nat.mod_eq_of_lt hi, Nat.mod_eq_of_lt hj] at this
  exact hij this

theorem e_mod {b : Buffer α} {l : List α} (h : Rep b l) : b.e % b.n = (b.s + l.length) % b.n := by
  rw [h.he, Nat.mod_mul_left_mod]

theorem push_rep {b : Buffer α} {l : List α} (h : Rep b l) (o : α) (hl : l.length < b.n) :
    ∃ b', b.push o = .ok b' ∧ b'.n = b.n ∧ Rep b' (l ++ [o]) := by
  have hn := h.npos
  refine ⟨{ b with buf := b.buf.set (b.e % b.n) (some o), e := b.inc b.e }, ?_, rfl, ?_⟩
  · have hf : b.isfull = false := by rw [h.isfull_iff]; simp; omega
    have hset := pySetItem_nat b.buf (b.e % b.n) (some o) (by rw [h.len]; exact Nat.mod_lt _ hn)
    simp only [push, hf, Bool.not_false, pyAssert, if_true, bind, Except.bind]
    rw [h.and_m1, hset]
    rfl
  · constructor
    · exact h.pow
    · simp [h.len]
    · exact h.hs
    · simp; omega
    · simp only [inc, h.and_m2, h.he, List.length_append, List.length_singleton]
      rw [Nat.mod_add_mod, Nat.add_assoc]
    · intro i hi
      simp only [List.length_append, List.length_singleton] at hi
      simp only [e_mod h]
      by_cases hil : i < l.length
      · rw [List.getElem?_set_ne (add_mod_ne hl (by omega) (by omega)), h.slots i hil, List.getElem_append_left hil]
      · have : i = l.length := by omega
        subst this
        rw [List.getElem?_set_self (by rw [h.len]; exact Nat.mod_lt _ hn)]
        simp

theorem push_full {b : Buffer α} {l : List α} (h : Rep b l) (o : α) (hl : ¬ l.length < b.n) :
    b.push o = .error .assertionError := by
  have hf : b.isfull = true := by
    rw [h.isfull_iff]; simp
    have := h.hl
    omega
  simp [push, hf, pyAssert, bind, Except.bind]

theorem dec_e {b : Buffer α} {l : List α} (h : Rep b l) (hl : 0 < l.length) :
    b.dec b.e = (b.s + (l.length - 1)) % (2 * b.n) := by
  have hn := h.npos
  have h1 := h.hs
  have h2 := h.hl
  have h3 := h.he
  rw [dec, h.and_m2, h.m2_eq]
  rw [mod_two_mul_cases hn (by omega)] at h3
  rw [mod_two_mul_cases (a := b.s + (l.length - 1)) hn (by omega)]
  have he4 : b.e - 1 < 4 * b.n := by split at h3 <;> omega
  rw [mod_two_mul_cases hn he4]
  split at h3 <;> split <;> split <;> (try split) <;> omega

theorem peek_rep {b : Buffer α} {l : List α} (h : Rep b l) (hl : l ≠ []) :
    b.peek = .ok (some (l.getLast hl)) := by
  have hl' : 0 < l.length := List.length_pos_iff.mpr hl
  have he : b.isempty = false := by rw [h.isempty_iff]; simpa using hl
  simp only [peek, he, Bool.not_false, pyAssert, if_true, bind, Except.bind]
  rw [h.and_m1, dec_e h hl', Nat.mod_mul_left_mod]
  apply pyIndex_nat
  rw [h.slots (l.length - 1) (by omega), List.getLast_eq_getElem]

theorem pop_rep {b : Buffer α} {l : List α} (h : Rep b l) (hl : l ≠ []) :
    ∃ b', b.pop = .ok (some (l.getLast hl), b') ∧ b'.n = b.n ∧ Rep b' l.dropLast := by
  have hl' : 0 < l.length := List.length_pos_iff.mpr hl
  refine ⟨{ b with e := b.dec b.e }, ?_, rfl, ?_⟩
  · have he : b.isempty = false := by rw [h.isempty_iff]; simpa using hl
    have hidx : pyIndex b.buf ((b.dec b.e &&& b.m1 : Nat) : Int) = .ok (some (l.getLast hl)) := by
      rw [h.and_m1, dec_e h hl', Nat.mod_mul_left_mod]
      apply pyIndex_nat
      rw [h.slots (l.length - 1) (by omega), List.getLast_eq_getElem]
    simp only [pop, he, Bool.not_false, pyAssert, if_true, bind, Except.bind]
    simp only [m1] at hidx ⊢
    rw [hidx]
    rfl
  · constructor
    · exact h.pow
    · exact h.len
    · exact h.hs
    · have := h.hl; simp; omega
    · simp only [dec_e h hl', List.length_dropLast]
    · intro i hi
      simp only [List.length_dropLast] at hi
      simp only [List.getElem_dropLast]
      exact h.slots i (by omega)

theorem shift_rep {b : Buffer α} {x : α} {l : List α} (h : Rep b (x :: l)) :
    ∃ b', b.shift = .ok (some x, b') ∧ b'.n = b.n ∧ Rep b' l := by
  have hn := h.npos
  have hll := h.hl
  simp only [List.length_cons] at hll
  refine ⟨{ b with s := b.inc b.s }, ?_, rfl, ?_⟩
  · have he : b.isempty = false := by rw [h.isempty_iff]; simp
    have hidx : pyIndex b.buf ((b.s &&& b.m1 : Nat) : Int) = .ok (some x) := by
      rw [h.and_m1]
      apply pyIndex_nat
      have := h.slots 0 (by simp)
      simpa using this
    simp only [shift, he, Bool.not_false, pyAssert, if_true, bind, Except.bind]
    rw [hidx]
    rfl
  · constructor
    · exact h.pow
    · exact h.len
    · simp only [inc, h.and_m2]; exact Nat.mod_lt _ (by omega)
    · simp only; omega
    · simp only [inc, h.and_m2, h.he, List.length_cons]
      rw [Nat.mod_add_mod]
      congr 1
      omega
    · intro i hi
      simp only [inc, h.and_m2]
      have := h.slots (i + 1) (by simp; omega)
      simp only [List.getElem_cons_succ] at this
      rw [← this]
      congr 1
      rw [Nat.add_mod ((b.s + 1) % (2 * b.n)), Nat.mod_mul_left_mod, ← Nat.add_mod]
      congr 1
      omega

theorem empty_ops {b : Buffer α} (h : Rep b []) :
    b.pop = .error .assertionError ∧ b.peek = .error .assertionError ∧ b.shift = .error .assertionError := by
  have he : b.isempty = true := by rw [h.isempty_iff]; rfl
  simp [pop, peek, shift, he, pyAssert, bind, Except.bind]

/-- One call on the ring buffer answers like the queue and keeps representing it. -/
theorem exec_rep {b : Buffer α} {l : List α} (h : Rep b l) (op : BufOp α) :
    (b.exec op).1 = (queueStep b.n l op).1 ∧ (b.exec op).2.n = b.n ∧
      Rep (b.exec op).2 (queueStep b.n l op).2 := by
  cases op with
  | push o =>
    by_cases hl : l.length < b.n
    · obtain ⟨b', h1, h2, h3⟩ := push_rep h o hl
      simp only [exec, h1, queueStep, hl, if_true]
      exact ⟨by trivial, h2, h3⟩
    · simp only [exec, push_full h o hl, queueStep, hl, if_false]
      exact ⟨by trivial, by trivial, h⟩
  | pop =>
    by_cases hl : l = []
    · subst hl
      simp only [exec, (empty_ops h).1, queueStep, List.getLast?_nil]
      exact ⟨by trivial, by trivial, h⟩
    · obtain ⟨b', h1, h2, h3⟩ := pop_rep h hl
      simp only [exec, h1, queueStep, List.getLast?_eq_some_getLast hl]
      exact ⟨by trivial, h2, h3⟩
  | peek =>
    by_cases hl : l = []
    · subst hl
      simp only [exec, (empty_ops h).2.1, queueStep, List.getLast?_nil]
      exact ⟨by trivial, by trivial, h⟩
    · simp only [exec, peek_rep h hl, queueStep, List.getLast?_eq_some_getLast hl]
      exact ⟨by trivial, by trivial, h⟩
  | shift =>
    cases l with
    | nil =>
      simp only [exec, (empty_ops h).2.2, queueStep]
      exact ⟨by trivial, by trivial, h⟩
    | cons x l =>
      obtain ⟨b', h1, h2, h3⟩ := shift_rep h
      simp only [exec, h1, queueStep]
      exact ⟨by trivial, h2, h3⟩
  | isempty => exact ⟨by simp only [exec, queueStep, h.isempty_iff], rfl, h⟩
  | isfull => exact ⟨by simp only [exec, queueStep, h.isfull_iff], rfl, h⟩

theorem run_rep {b : Buffer α} {l : List α} (h : Rep b l) (ops : List (BufOp α)) :
    b.run ops = queueRun b.n l ops := by
  induction ops generalizing b l with
  | nil => rfl
  | cons op ops ih =>
    obtain ⟨h1, h2, h3⟩ := exec_rep h op
    simp only [run, queueRun]
    rw [ih h3, h1, h2]

end Buffer
end Coral
