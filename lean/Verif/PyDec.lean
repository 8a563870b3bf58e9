import Verif.PyStr

/-!
# Decimal numbers as text

Nothing here models coral itself.
-/
namespace Coral

/-- The character of a digit. -/
def digitChar (d : Nat) : Char := Char.ofNat (48 + d)

/-- The value of a decimal digit; other decimal digits of Unicode are not considered. -/
def digitVal (c : Char) : Option Nat := if 48 ≤ c.toNat ∧ c.toNat ≤ 57 then some (c.toNat - 48) else none

/-- The digits of `n`, at most `fuel + 1` of them. -/
def decGo : Nat → Nat → Str
  | 0, n => [digitChar (n % 10)]
  | fuel + 1, n => if n < 10 then [digitChar n] else decGo fuel (n / 10) ++ [digitChar (n % 10)]

/-- `str(n)` for `n ≥ 0`; see `decNat_eq`. -/
def decNat (n : Nat) : Str := decGo n n

/-- `str(n)` -/
def decInt (n : Int) : Str := if n < 0 then '-' :: decNat n.natAbs else decNat n.natAbs

/-- The value of a string of digits. -/
def readDigits (a : Nat) : Str → Option Nat
  | [] => some a
  | c :: s =>
    match digitVal c with
    | none => none
    | some d => readDigits (a * 10 + d) s

/-- A non-empty string of digits. -/
def readNat : Str → Option Nat
  | [] => none
  | c :: s => readDigits 0 (c :: s)

/-- The value of an optional sign and digits. -/
def readInt : Str → Option Int
  | [] => none
  | c :: s =>
    if c = '-' then (readNat s).map (fun n => -(n : Int))
    else if c = '+' then (readNat s).map (fun n => (n : Int))
    else (readNat (c :: s)).map (fun n => (n : Int))

/-- `int(s)` for a string; underscores between digits are not modelled. -/
def pyIntOf (s : Str) : Py Int :=
  match readInt (strip s) with
  | some n => .ok n
  | none => .error .valueError

/-- `s.rjust(n)` -/
def rjust (n : Nat) (s : Str) : Str := List.replicate (n - s.length) ' ' ++ s

/-- `s.ljust(n)` -/
def ljust (n : Nat) (s : Str) : Str := s ++ List.replicate (n - s.length) ' '

/-- `"%02d" % n` -/
def pad2 (n : Int) : Str :=
  if n < 0 then '-' :: (List.replicate (1 - (decNat n.natAbs).length) '0' ++ decNat n.natAbs)
  else List.replicate (2 - (decNat n.natAbs).length) '0' ++ decNat n.natAbs

/-! ### Facts -/

theorem digitChar_toNat {d : Nat} (h : d < 10) : (digitChar d).toNat = 48 + d := by
  have : d = 0 ∨ d = 1 ∨ d = 2 ∨ d = 3 ∨ d = 4 ∨ d = 5 ∨ d = 6 ∨ d = 7 ∨ d = 8 ∨ d = 9 := by omega
  rcases this with rfl | rfl | rfl | rfl | rfl | rfl | rfl | rfl | rfl | rfl <;> rfl

theorem digitVal_digitChar {d : Nat} (h : d < 10) : digitVal (digitChar d) = some d := by
  rw [digitVal, digitChar_toNat h, if_pos (by omega)]
  congr 1; omega

theorem digitVal_some {c : Char} {d : Nat} (h : digitVal c = some d) : d < 10 ∧ c = digitChar d := by
  rw [digitVal] at h
  split at h
  · rename_i hc
    injection h with h
    refine ⟨by omega, ?_⟩
    rw [digitChar, ← h, show 48 + (c.toNat - 48) = c.toNat by omega]
    simp [Char.ofNat_toNat]
  · cases h

theorem readDigits_append (a : Nat) (s t : Str) : readDigits a (s ++ t) = (readDigits a s).bind (fun b => readDigits b t) := by
  induction s generalizing a with
  | nil => rfl
  | cons c s ih =>
    rw [List.cons_append, readDigits, readDigits]
    cases digitVal c with
    | none => rfl
    | some d => exact ih _

theorem decGo_eq : ∀ (f g n : Nat), n ≤ f → n ≤ g → decGo f n = decGo g n
  | 0, 0, _, _, _ => rfl
  | 0, g + 1, n, hf, _ => by
    have : n = 0 := by omega
    subst this; rfl
  | f + 1, 0, n, _, hg => by
    have : n = 0 := by omega
    subst this; rfl
  | f + 1, g + 1, n, hf, hg => by
    rw [decGo, decGo]
    split
    · rfl
    · rw [decGo_eq f g (n / 10) (by omega) (by omega)]

theorem decNat_eq (n : Nat) : decNat n = if n < 10 then [digitChar n] else decNat (n / 10) ++ [digitChar (n % 10)] := by
  cases n with
  | zero => rfl
  | succ n =>
    rw [decNat, decGo]
    split
    · rfl
    · rw [decNat, decGo_eq n ((n + 1) / 10) _ (by omega) (by omega)]

theorem decNat_induct {P : Nat → Prop} (h1 : ∀ n, n < 10 → P n) (h2 : ∀ n, ¬ n < 10 → P (n / 10) → P n) (n : Nat) : P n := by
  induction n using Nat.strongRecOn with
  | ind n ih =>
    by_cases h : n < 10
    · exact h1 n h
    · exact h2 n h (ih _ (by omega))

theorem decNat_ne_nil (n : Nat) : decNat n ≠ [] := by
  rw [decNat_eq]; split <;> simp

theorem readDigits_decNat (n : Nat) : readDigits 0 (decNat n) = some n := by
  induction n using decNat_induct with
  | h1 n h =>
    rw [decNat_eq, if_pos h]
    simp [readDigits, digitVal_digitChar h]
  | h2 n h ih =>
    rw [decNat_eq, if_neg h, readDigits_append, ih]
    simp only [Option.bind_some, readDigits, digitVal_digitChar (Nat.mod_lt n (by decide : 0 < 10))]
    congr 1; omega

theorem readNat_of_ne {s : Str} (h : s ≠ []) : readNat s = readDigits 0 s := by
  cases s with
  | nil => exact absurd rfl h
  | cons c s => rfl

theorem readNat_decNat (n : Nat) : readNat (decNat n) = some n := by
  rw [readNat_of_ne (decNat_ne_nil n), readDigits_decNat]

theorem decNat_digits (n : Nat) : ∀ c ∈ decNat n, ∃ d, d < 10 ∧ c = digitChar d := by
  induction n using decNat_induct with
  | h1 n h =>
    rw [decNat_eq, if_pos h]
    simp only [List.mem_singleton]
    rintro c rfl
    exact ⟨n, h, rfl⟩
  | h2 n h ih =>
    rw [decNat_eq, if_neg h]
    intro c hc
    rcases List.mem_append.mp hc with hc | hc
    · exact ih c hc
    · rw [List.mem_singleton] at hc
      exact ⟨n % 10, Nat.mod_lt _ (by decide), hc⟩

theorem digitChar_plain {d : Nat} (h : d < 10) : isSpace (digitChar d) = false ∧ digitChar d ≠ '-' ∧ digitChar d ≠ '+' ∧
    digitChar d ≠ ':' ∧ digitChar d ≠ ' ' ∧ digitChar d ≠ '.' ∧ digitChar d ≠ '|' ∧ digitChar d ≠ '\r' ∧ digitChar d ≠ '\n' := by
  have : d = 0 ∨ d = 1 ∨ d = 2 ∨ d = 3 ∨ d = 4 ∨ d = 5 ∨ d = 6 ∨ d = 7 ∨ d = 8 ∨ d = 9 := by omega
  rcases this with rfl | rfl | rfl | rfl | rfl | rfl | rfl | rfl | rfl | rfl <;> decide

theorem readInt_decInt (n : Int) : readInt (decInt n) = some n := by
  rw [decInt]
  split
  · rw [readInt, if_pos rfl, readNat_decNat]
    show some (-(n.natAbs : Int)) = some n; refine congrArg some ?_
    omega
  · have hd := decNat_digits n.natAbs
    cases hs : decNat n.natAbs with
    | nil => exact absurd hs (decNat_ne_nil _)
    | cons c s =>
      rw [hs] at hd
      obtain ⟨d, hlt, rfl⟩ := hd c List.mem_cons_self
      have hp := digitChar_plain hlt
      rw [readInt, if_neg hp.2.1, if_neg hp.2.2.1, ← hs, readNat_decNat]
      show some (n.natAbs : Int) = some n; refine congrArg some ?_
      omega

theorem decInt_chars (n : Int) : ∀ c ∈ decInt n, c = '-' ∨ ∃ d, d < 10 ∧ c = digitChar d := by
  rw [decInt]
  split
  · intro c hc
    rcases List.mem_cons.mp hc with rfl | hc
    · exact .inl rfl
    · exact .inr (decNat_digits _ c hc)
  · intro c hc
    exact .inr (decNat_digits _ c hc)

theorem decInt_noSpace (n : Int) : ∀ c ∈ decInt n, isSpace c = false := by
  intro c hc
  rcases decInt_chars n c hc with rfl | ⟨d, hd, rfl⟩
  · decide
  · exact (digitChar_plain hd).1

theorem decInt_ne_nil (n : Int) : decInt n ≠ [] := by
  rw [decInt]; split
  · simp
  · exact decNat_ne_nil _

theorem noOuterSpace_of_all {s : Str} (h : ∀ c ∈ s, isSpace c = false) : NoOuterSpace s :=
  ⟨fun c hc => h c (List.mem_of_mem_head? hc), fun c hc => h c (List.mem_of_mem_getLast? hc)⟩

theorem lstrip_blanks (k : Nat) (s : Str) : lstrip (List.replicate k ' ' ++ s) = lstrip s := by
  induction k with
  | zero => rfl
  | succ k ih =>
    rw [List.replicate_succ, List.cons_append, lstrip, List.dropWhile_cons_of_pos (by decide)]
    exact ih

theorem rstrip_blanks (k : Nat) (s : Str) : rstrip (s ++ List.replicate k ' ') = rstrip s := by
  induction k generalizing s with
  | zero => simp
  | succ k ih =>
    rw [List.replicate_succ, show s ++ ' ' :: List.replicate k ' ' = (s ++ [' ']) ++ List.replicate k ' ' by simp, ih]
    exact rstrip_snoc (by decide)

theorem pyIntOf_decInt (n : Int) : pyIntOf (decInt n) = .ok n := by
  rw [pyIntOf, strip_id (noOuterSpace_of_all (decInt_noSpace n)), readInt_decInt]

theorem pyIntOf_rjust (k : Nat) (n : Int) : pyIntOf (rjust k (decInt n)) = .ok n := by
  rw [pyIntOf, rjust, strip, lstrip_blanks]
  have := strip_id (noOuterSpace_of_all (decInt_noSpace n))
  rw [strip] at this
  rw [this, readInt_decInt]

theorem readDigits_zeros (k : Nat) (s : Str) : readDigits 0 (List.replicate k '0' ++ s) = readDigits 0 s := by
  induction k with
  | zero => rfl
  | succ k ih =>
    rw [List.replicate_succ, List.cons_append, readDigits]
    exact ih

theorem decNat_length_le_two {n : Nat} (h : n < 100) : (decNat n).length ≤ 2 := by
  rw [decNat_eq]
  split
  · simp
  · rw [decNat_eq, if_pos (by omega)]
    simp

/-- Below 100 `pad2` gives two digits with the value of the number. -/
theorem pad2_spec {n : Nat} (h : n < 100) : (pad2 n).length = 2 ∧ readNat (pad2 n) = some n ∧ ∀ c ∈ pad2 n, ∃ d, d < 10 ∧ c = digitChar d := by
  have h1 : pad2 n = List.replicate (2 - (decNat n).length) '0' ++ decNat n := by
    rw [pad2, if_neg (by omega)]; rfl
  have h2 := decNat_length_le_two h
  refine ⟨by rw [h1, List.length_append, List.length_replicate]; omega, ?_, ?_⟩
  · rw [h1, readNat_of_ne (by simp [decNat_ne_nil]), readDigits_zeros, readDigits_decNat]
  · intro c hc
    rw [h1] at hc
    rcases List.mem_append.mp hc with hc | hc
    · rw [(List.mem_replicate.mp hc).2]
      exact ⟨0, by decide, rfl⟩
    · exact decNat_digits _ c hc

end Coral
