/-!
# UTF-8

A Python string is the list of its code points (naturals below 0x110000). `str.encode("utf8")` raises for a surrogate;
`bytes.decode("utf8")` is strict: no overlong forms, no surrogates, nothing above 0x10ffff. Bytes are naturals.
-/
namespace Coral

/-- A code point that UTF-8 can encode. -/
def scalar (c : Nat) : Bool := c < 0xd800 || (0xe000 ≤ c && c < 0x110000)

/-- UTF-8 of one code point. -/
def utf8Enc1 (c : Nat) : List Nat :=
  if c < 0x80 then [c]
  else if c < 0x800 then [0xc0 + c / 64, 0x80 + c % 64]
  else if c < 0x10000 then [0xe0 + c / 4096, 0x80 + c / 64 % 64, 0x80 + c % 64]
  else [0xf0 + c / 262144, 0x80 + c / 4096 % 64, 0x80 + c / 64 % 64, 0x80 + c % 64]

/-- `s.encode("utf8")`, `none` for `UnicodeEncodeError`. -/
def utf8Enc (s : List Nat) : Option (List Nat) :=
  if s.all scalar then some (s.flatMap utf8Enc1) else none

/-- A continuation byte. -/
def cont (b : Nat) : Bool := 0x80 ≤ b && b < 0xc0

/-- Decode one code point from the front; `none` on an invalid sequence. -/
def utf8Dec1 : List Nat → Option (Nat × List Nat)
  | [] => none
  | b0 :: rest =>
    if b0 < 0x80 then some (b0, rest)
    else if b0 < 0xc0 then none
    else if b0 < 0xe0 then
      match rest with
      | b1 :: rest =>
        let c := (b0 - 0xc0) * 64 + (b1 - 0x80)
        if cont b1 && 0x80 ≤ c then some (c, rest) else none
      | _ => none
    else if b0 < 0xf0 then
      match rest with
      | b1 :: b2 :: rest =>
        let c := (b0 - 0xe0) * 4096 + (b1 - 0x80) * 64 + (b2 - 0x80)
        if cont b1 && cont b2 && 0x800 ≤ c && scalar c then some (c, rest) else none
      | _ => none
    else if b0 < 0xf8 then
      match rest with
      | b1 :: b2 :: b3 :: rest =>
        let c := (b0 - 0xf0) * 262144 + (b1 - 0x80) * 4096 + (b2 - 0x80) * 64 + (b3 - 0x80)
        if cont b1 && cont b2 && cont b3 && 0x10000 ≤ c && scalar c then some (c, rest) else none
      | _ => none
    else none

/-- Decoding with a bound on the number of code points (every step consumes at least one byte). -/
def utf8DecFuel : Nat → List Nat → Option (List Nat)
  | _, [] => some []
  | 0, _ :: _ => none
  | n + 1, s => match utf8Dec1 s with
    | some (c, rest) => (utf8DecFuel n rest).map (c :: ·)
    | none => none

/-- `bs.decode("utf8")`, `none` for `UnicodeDecodeError`. -/
def utf8Dec (bs : List Nat) : Option (List Nat) := utf8DecFuel bs.length bs

theorem utf8Enc1_ne_nil (c : Nat) : utf8Enc1 c ≠ [] := by
  unfold utf8Enc1
  split
  · simp
  · split
    · simp
    · split <;> simp

theorem utf8Dec1_enc1 (c : Nat) (h : scalar c = true) (rest : List Nat) :
    utf8Dec1 (utf8Enc1 c ++ rest) = some (c, rest) := by
  have h' : c < 0xd800 ∨ (0xe000 ≤ c ∧ c < 0x110000) := by simpa [scalar] using h
  unfold utf8Enc1
  split
  · simp only [List.cons_append, List.nil_append, utf8Dec1]
    rw [if_pos (by assumption)]
  · split
    · simp only [List.cons_append, List.nil_append, utf8Dec1]
      rw [if_neg (by omega), if_neg (by omega), if_pos (by omega)]
      have e : (0xc0 + c / 64 - 0xc0) * 64 + (0x80 + c % 64 - 0x80) = c := by omega
      have c1 : cont (0x80 + c % 64) = true := by simp [cont]; omega
      simp only [e, c1]
      rw [if_pos (by simp; omega)]
    · split
      · simp only [List.cons_append, List.nil_append, utf8Dec1]
        rw [if_neg (by omega), if_neg (by omega), if_neg (by omega), if_pos (by omega)]
        have e : (0xe0 + c / 4096 - 0xe0) * 4096 + (0x80 + c / 64 % 64 - 0x80) * 64 + (0x80 + c % 64 - 0x80) = c := by
          omega
        have c1 : cont (0x80 + c / 64 % 64) = true := by simp [cont]; omega
        have c2 : cont (0x80 + c % 64) = true := by simp [cont]; omega
        simp only [e, c1, c2, h]
        rw [if_pos (by simp; omega)]
      · simp only [List.cons_append, List.nil_append, utf8Dec1]
        rw [if_neg (by omega), if_neg (by omega), if_neg (by omega), if_neg (by omega), if_pos (by omega)]
        have e : (0xf0 + c / 262144 - 0xf0) * 262144 + (0x80 + c / 4096 % 64 - 0x80) * 4096 +
            (0x80 + c / 64 % 64 - 0x80) * 64 + (0x80 + c % 64 - 0x80) = c := by omega
        have c1 : cont (0x80 + c / 4096 % 64) = true := by simp [cont]; omega
        have c2 : cont (0x80 + c / 64 % 64) = true := by simp [cont]; omega
        have c3 : cont (0x80 + c % 64) = true := by simp [cont]; omega
        simp only [e, c1, c2, c3, h]
        rw [if_pos (by simp; omega)]

theorem utf8DecFuel_enc (s : List Nat) (h : ∀ c ∈ s, scalar c = true) (n : Nat)
    (hn : (s.flatMap utf8Enc1).length ≤ n) : utf8DecFuel n (s.flatMap utf8Enc1) = some s := by
  induction s generalizing n with
  | nil => cases n <;> rfl
  | cons c s ih =>
    rw [List.flatMap_cons] at hn ⊢
    obtain ⟨b, bs, hb⟩ := List.exists_cons_of_ne_nil (utf8Enc1_ne_nil c)
    rw [List.length_append] at hn
    have hlen : 1 ≤ (utf8Enc1 c).length := by rw [hb]; simp
    obtain ⟨m, rfl⟩ : ∃ m, n = m + 1 := ⟨n - 1, by omega⟩
    have hd := utf8Dec1_enc1 c (h c (by simp)) (s.flatMap utf8Enc1)
    rw [hb, List.cons_append] at hd ⊢
    simp only [utf8DecFuel, hd]
    rw [ih (fun x hx => h x (by simp [hx])) m (by omega)]
    rfl

/-- Strict decoding inverts encoding. -/
theorem utf8Dec_enc (s bs : List Nat) (h : utf8Enc s = some bs) : utf8Dec bs = some s := by
  unfold utf8Enc at h
  split at h
  · rename_i ha
    cases h
    exact utf8DecFuel_enc s (by simpa using ha) _ (Nat.le_refl _)
  · cases h

/-- Encoding is a homomorphism. -/
theorem utf8Enc_append (s t bs bt : List Nat) (h : utf8Enc s = some bs) (h' : utf8Enc t = some bt) :
    utf8Enc (s ++ t) = some (bs ++ bt) := by
  unfold utf8Enc at *
  split at h
  · split at h'
    · cases h; cases h'
      rw [if_pos (by simp_all), List.flatMap_append]
    · cases h'
  · cases h

theorem utf8Enc1_lt (c : Nat) (h : scalar c = true) : ∀ b ∈ utf8Enc1 c, b < 0xf5 := by
  have h' : c < 0xd800 ∨ (0xe000 ≤ c ∧ c < 0x110000) := by simpa [scalar] using h
  intro b hb
  unfold utf8Enc1 at hb
  split at hb
  · simp at hb; omega
  · split at hb
    · simp at hb; omega
    · split at hb
      · simp at hb; omega
      · simp at hb; omega

/-- UTF-8 never contains a byte above `0xf4`. -/
theorem utf8Enc_lt (s bs : List Nat) (h : utf8Enc s = some bs) : ∀ b ∈ bs, b < 0xf5 := by
  unfold utf8Enc at h
  split at h
  · rename_i ha
    cases h
    intro b hb
    obtain ⟨c, hc, hb⟩ := List.mem_flatMap.mp hb
    exact utf8Enc1_lt c (by have := List.all_eq_true.mp ha; exact this c hc) b hb
  · cases h

theorem utf8Enc_nil_iff (s : List Nat) (h : utf8Enc s = some []) : s = [] := by
  have := utf8Dec_enc s [] h
  simpa [utf8Dec, utf8DecFuel] using this.symm

/-- ASCII text is its own encoding. -/
theorem utf8Enc_ascii (s : List Nat) (h : ∀ c ∈ s, c < 128) : utf8Enc s = some s := by
  unfold utf8Enc
  have ha : s.all scalar = true := by
    rw [List.all_eq_true]; intro c hc; have := h c hc; simp [scalar]; omega
  rw [if_pos ha]
  congr 1
  clear ha
  induction s with
  | nil => rfl
  | cons c s ih =>
    rw [List.flatMap_cons, ih (fun x hx => h x (by simp [hx]))]
    have := h c (by simp)
    simp [utf8Enc1, this]

end Coral
