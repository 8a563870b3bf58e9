/-!
# Python semantics shared by the models

Core-only. Nothing here models coral itself; these are the pieces of Python that the models use.
-/
namespace Coral

/-- The Python exceptions the modelled code can raise. -/
inductive PyErr where
  | assertionError | indexError | keyError | typeError | valueError | zeroDivisionError
  | attributeError | nameError | structError | stopIteration | runtimeError
  | unboundLocalError | overflowError | unicodeError | projectionError | shapefileException | exception
  deriving DecidableEq, Repr

/-- A Python computation without non-termination: a value or an exception. -/
abbrev Py (α : Type) := Except PyErr α

instance [DecidableEq α] [DecidableEq ε] : DecidableEq (Except ε α)
  | .ok a, .ok b => if h : a = b then isTrue (by rw [h]) else isFalse (by simp [h])
  | .error a, .error b => if h : a = b then isTrue (by rw [h]) else isFalse (by simp [h])
  | .ok _, .error _ => isFalse (by simp)
  | .error _, .ok _ => isFalse (by simp)

/-- `assert c` -/
def pyAssert (c : Bool) : Py Unit := if c then .ok () else .error .assertionError

theorem Py.bind_ok {α β : Type} {x : Py α} {f : α → Py β} {b : β} :
    (x >>= f) = .ok b ↔ ∃ a, x = .ok a ∧ f a = .ok b := by
  cases x <;> simp [bind, Except.bind]

/-- A Python computation that may also never end: `hang` (an infinite loop), an exception, or a value. -/
inductive Res (α : Type) where
  | hang | raise (e : PyErr) | ok (a : α)
  deriving DecidableEq, Repr

namespace Res

/-- Sequencing. -/
protected def bind {α β : Type} : Res α → (α → Res β) → Res β
  | .hang, _ => .hang
  | .raise e, _ => .raise e
  | .ok a, f => f a

instance : Monad Res where
  pure := .ok
  bind := Res.bind

/-- A terminating computation as a `Res`. -/
def lift {α : Type} : Py α → Res α
  | .ok a => .ok a
  | .error e => .raise e

theorem bind_ok {α β : Type} {x : Res α} {f : α → Res β} {b : β} :
    (x >>= f) = .ok b ↔ ∃ a, x = .ok a ∧ f a = .ok b := by
  cases x <;> simp [bind, Res.bind]

instance : LawfulMonad Res := LawfulMonad.mk'
  (id_map := by intro α x; cases x <;> rfl)
  (pure_bind := by intros; rfl)
  (bind_assoc := by intro α β γ x f g; cases x <;> rfl)

theorem lift_ok {α : Type} {x : Py α} {a : α} : lift x = .ok a ↔ x = .ok a := by
  cases x <;> simp [lift]

end Res

/-- Big-step semantics of `while cond: body` on the loop state.
Divergence of the loop from `s` is `¬ ∃ t, While cond body s t`. -/
inductive While {S : Type} (cond : S → Prop) (body : S → S) : S → S → Prop
  | done {s} : ¬ cond s → While cond body s s
  | step {s t} : cond s → While cond body (body s) t → While cond body s t

theorem While.det {S : Type} {cond : S → Prop} {body : S → S} {s t u : S}
    (h : While cond body s t) (h' : While cond body s u) : t = u := by
  induction h with
  | done hn => cases h' with
    | done => rfl
    | step hc _ => exact absurd hc hn
  | step hc _ ih => cases h' with
    | done hn => exact absurd hc hn
    | step _ h2 => exact ih h2

theorem While.not_cond {S : Type} {cond : S → Prop} {body : S → S} {s t : S}
    (h : While cond body s t) : ¬ cond t := by
  induction h with
  | done hn => exact hn
  | step _ _ ih => exact ih

theorem While.inv {S : Type} {cond : S → Prop} {body : S → S} {I : S → Prop}
    (hstep : ∀ s, cond s → I s → I (body s)) {s t : S}
    (h : While cond body s t) (hs : I s) : I t := by
  induction h with
  | done _ => exact hs
  | step hc _ ih => exact ih (hstep _ hc hs)

/-- If an invariant implies the guard, the loop never ends. -/
theorem While.diverges {S : Type} {cond : S → Prop} {body : S → S} {I : S → Prop}
    (hI : ∀ s, I s → cond s) (hstep : ∀ s, I s → I (body s)) {s : S} (hs : I s) :
    ¬ ∃ t, While cond body s t := by
  rintro ⟨t, h⟩
  have : I t := h.inv (fun s _ hi => hstep s hi) hs
  exact h.not_cond (hI _ this)

/-- Python list indexing `l[i]` with negative indices and `IndexError`. -/
def pyIndex {α : Type} (l : List α) (i : Int) : Py α :=
  let j := if i < 0 then i + l.length else i
  if 0 ≤ j then
    match l[j.toNat]? with
    | some a => .ok a
    | none => .error .indexError
  else .error .indexError

/-- Terminating executions of `while True: body` where each round emits some outputs and either breaks (`none`) or goes
on with a new state; the outputs of the whole run are collected. -/
inductive Loop {S α : Type} (body : S → List α × Option S) : S → List α → Prop
  | brk {s o} : body s = (o, none) → Loop body s o
  | step {s s' o os} : body s = (o, some s') → Loop body s' os → Loop body s (o ++ os)

theorem Loop.det {S α : Type} {body : S → List α × Option S} {s : S} {o o' : List α}
    (h : Loop body s o) (h' : Loop body s o') : o = o' := by
  induction h generalizing o' with
  | brk hb => cases h' with
    | brk hb' => rw [hb] at hb'; exact (Prod.mk.inj hb').1
    | step hb' _ => rw [hb] at hb'; simp at hb'
  | step hb _ ih => cases h' with
    | brk hb' => rw [hb] at hb'; simp at hb'
    | step hb' h2 =>
      rw [hb] at hb'
      obtain ⟨e1, e2⟩ := Prod.mk.inj hb'
      injection e2 with e2
      subst e2
      rw [e1, ih h2]

/-- Python item assignment `l[i] = v` on a list, with negative indices and `IndexError`. -/
def pySetItem {α : Type} (l : List α) (i : Int) (v : α) : Py (List α) :=
  let j := if i < 0 then i + l.length else i
  if 0 ≤ j then
    if j.toNat < l.length then .ok (l.set j.toNat v) else .error .indexError
  else .error .indexError

/-- A byte is a natural number; models keep it below 256 where the code does. -/
notation "Byte" => Nat

/-- Cursor reading: `f.read(n)` on a binary file returns up to `n` bytes and advances. -/
def readN (n : Nat) (s : List Byte) : List Byte × List Byte := (s.take n, s.drop n)

/-- Big-endian bytes of `v` in exactly `n` bytes (least significant `n` bytes of `v`). -/
def beBytes : Nat → Nat → List Byte
  | 0, _ => []
  | n + 1, v => beBytes n (v / 256) ++ [v % 256]

/-- Value of a big-endian byte string. -/
def beVal (bs : List Byte) : Nat := bs.foldl (fun a b => a * 256 + b) 0

/-- Little-endian bytes of `v` in exactly `n` bytes. -/
def leBytes (n v : Nat) : List Byte := (beBytes n v).reverse

/-- Value of a little-endian byte string. -/
def leVal (bs : List Byte) : Nat := beVal bs.reverse

/-- `struct.pack` of one unsigned big-endian integer code of `n` bytes: `struct.error` when out of range. -/
def packU (n : Nat) (v : Int) : Py (List Byte) :=
  if 0 ≤ v ∧ v < (256 ^ n : Nat) then .ok (beBytes n v.toNat) else .error .structError

/-- `struct.unpack` of one unsigned big-endian integer code of `n` bytes: the buffer must have exactly `n` bytes. -/
def unpackU (n : Nat) (bs : List Byte) : Py Nat :=
  if bs.length = n then .ok (beVal bs) else .error .structError

theorem beBytes_length (n v : Nat) : (beBytes n v).length = n := by
  induction n generalizing v with
  | zero => rfl
  | succ n ih => simp [beBytes, ih]

theorem beBytes_lt (n v : Nat) : ∀ b ∈ beBytes n v, b < 256 := by
  induction n generalizing v with
  | zero => simp [beBytes]
  | succ n ih =>
    intro b hb
    simp only [beBytes, List.mem_append, List.mem_singleton] at hb
    rcases hb with hb | rfl
    · exact ih _ b hb
    · exact Nat.mod_lt _ (by decide)

theorem beVal_append_singleton (bs : List Byte) (b : Byte) : beVal (bs ++ [b]) = beVal bs * 256 + b := by
  simp [beVal, List.foldl_append]

theorem beVal_beBytes (n v : Nat) : beVal (beBytes n v) = v % 256 ^ n := by
  induction n generalizing v with
  | zero => simp [beBytes, beVal, Nat.mod_one]
  | succ n ih =>
    rw [beBytes, beVal_append_singleton, ih, Nat.pow_succ, Nat.mul_comm (256 ^ n) 256, Nat.mod_mul]
    omega

theorem beVal_foldl_lt (bs : List Byte) (a : Nat) (h : ∀ b ∈ bs, b < 256) :
    bs.foldl (fun a b => a * 256 + b) a < (a + 1) * 256 ^ bs.length := by
  induction bs generalizing a with
  | nil => simp
  | cons b bs ih =>
    have h1 := ih (a * 256 + b) (fun x hx => h x (by simp [hx]))
    have h2 := h b (by simp)
    simp only [List.foldl_cons, List.length_cons]
    refine Nat.lt_of_lt_of_le h1 ?_
    rw [Nat.pow_succ, Nat.mul_comm (256 ^ bs.length) 256, ← Nat.mul_assoc]
    exact Nat.mul_le_mul_right _ (by have h3 : b < 256 := h2; omega)

theorem beVal_lt (bs : List Byte) (h : ∀ b ∈ bs, b < 256) : beVal bs < 256 ^ bs.length := by
  simpa [beVal] using beVal_foldl_lt bs 0 h

theorem beVal_append (as bs : List Byte) : beVal (as ++ bs) = beVal as * 256 ^ bs.length + beVal bs := by
  have aux : ∀ (bs : List Byte) (a : Nat),
      bs.foldl (fun a b => a * 256 + b) a = a * 256 ^ bs.length + bs.foldl (fun a b => a * 256 + b) 0 := by
    intro bs
    induction bs with
    | nil => simp
    | cons b bs ih =>
      intro a
      simp only [List.foldl_cons, List.length_cons]
      rw [ih (a * 256 + b), ih (0 * 256 + b), Nat.pow_succ, Nat.add_mul, Nat.mul_assoc]
      have : 256 * 256 ^ bs.length = 256 ^ bs.length * 256 := Nat.mul_comm _ _
      rw [this, Nat.zero_mul, Nat.zero_add]; omega
  rw [beVal, List.foldl_append, aux]; rfl

/-- Bytes determine and are determined by the value (for a fixed length). -/
theorem beBytes_beVal (bs : List Byte) (h : ∀ b ∈ bs, b < 256) : beBytes bs.length (beVal bs) = bs := by
  have aux : ∀ (n : Nat) (bs : List Byte), bs.length = n → (∀ b ∈ bs, b < 256) → beBytes n (beVal bs) = bs := by
    intro n
    induction n with
    | zero => intro bs hl _; simp [List.length_eq_zero_iff.mp hl, beBytes]
    | succ n ih =>
      intro bs hl hb
      have hne : bs ≠ [] := by intro h0; simp [h0] at hl
      have hsplit := List.dropLast_concat_getLast hne
      rw [← hsplit]
      rw [beVal_append_singleton, beBytes]
      have hlast : bs.getLast hne < 256 := hb _ (List.getLast_mem hne)
      generalize bs.getLast hne = l at *
      have hlast : l < 256 := hlast
      have h1 : (beVal bs.dropLast * 256 + l) / 256 = beVal bs.dropLast := by omega
      have h2 : (beVal bs.dropLast * 256 + l) % 256 = l := by omega
      rw [h1, h2, ih bs.dropLast (by simp [hl]) (fun b hb' => hb b (List.dropLast_subset _ hb'))]
  exact aux _ bs rfl h

theorem unpackU_packU {n : Nat} {v : Int} {bs : List Byte} (h : packU n v = .ok bs) :
    unpackU n bs = .ok v.toNat ∧ bs.length = n := by
  unfold packU at h
  split at h
  · rename_i hv
    cases h
    refine ⟨?_, beBytes_length _ _⟩
    rw [unpackU, if_pos (beBytes_length _ _), beVal_beBytes, Nat.mod_eq_of_lt]
    omega
  · cases h

theorem unpackU_append {n : Nat} {v : Int} {bs : List Byte} (h : packU n v = .ok bs) (rest : List Byte) :
    (bs ++ rest).take n = bs ∧ (bs ++ rest).drop n = rest := by
  have hl := (unpackU_packU h).2
  constructor
  · rw [← hl]; simp
  · rw [← hl]; simp

end Coral
