import Verif.Model.Vlv

namespace Coral

theorem base128Loop_acc (v : Nat) (ds : List Nat) : base128Loop v ds = base128Loop v [] ++ ds := by
  induction v using Nat.strongRecOn generalizing ds with
  | ind v ih =>
    rw [base128Loop, base128Loop.eq_1 v []]
    split
    · rename_i h
      have hlt : v >>> 7 < v := by
        rw [Nat.shiftRight_eq_div_pow]; exact Nat.div_lt_self (by omega) (by decide)
      rw [ih _ hlt, ih _ hlt [v % 128]]
      simp
    · simp

theorem base128_small {v : Nat} (h : v < 128) : base128 v = [v] := by
  rw [base128, base128Loop, if_neg (by omega)]

theorem base128_big {v : Nat} (h : 128 ≤ v) : base128 v = base128 (v / 128) ++ [v % 128] := by
  rw [base128, base128Loop, if_pos h, base128Loop_acc, Nat.shiftRight_eq_div_pow]
  rfl

/-- Induction principle following the digits. -/
theorem base128_ind {P : Nat → Prop} (small : ∀ v, v < 128 → P v) (big : ∀ v, 128 ≤ v → P (v / 128) → P v)
    (v : Nat) : P v := by
  induction v using Nat.strongRecOn with
  | ind v ih =>
    by_cases h : v < 128
    · exact small v h
    · exact big v (by omega) (ih _ (Nat.div_lt_self (by omega) (by decide)))

theorem base128_ne_nil (v : Nat) : base128 v ≠ [] := by
  by_cases h : v < 128
  · simp [base128_small h]
  · simp [base128_big (Nat.le_of_not_lt h)]

theorem writevlv_small {v : Nat} (h : v < 128) : writevlv v = [v] := by
  simp [writevlv, base128_small h]

/-- The continuation bytes for a number: all digits with the top bit set. -/
def contBytes (v : Nat) : List Byte := (base128 v).map (fun d => d ||| 0x80)

theorem writevlv_big {v : Nat} (h : 128 ≤ v) : writevlv v = contBytes (v / 128) ++ [v % 128] := by
  simp [writevlv, base128_big h, contBytes]

theorem contBytes_small {v : Nat} (h : v < 128) : contBytes v = [v ||| 0x80] := by
  simp [contBytes, base128_small h]

theorem contBytes_big {v : Nat} (h : 128 ≤ v) : contBytes v = contBytes (v / 128) ++ [(v % 128) ||| 0x80] := by
  simp [contBytes, base128_big h]

theorem byte_facts : ∀ d, d < 128 → (d ||| 0x80) &&& 0x80 ≠ 0 ∧ (d ||| 0x80) &&& 0x7f = d ∧ d &&& 0x80 = 0 ∧
    d ||| 0x80 = d + 128 := by decide

theorem byte_flag : ∀ d, d < 256 → (d &&& 0x80 ≠ 0 ↔ 128 ≤ d) := by decide +kernel

theorem readvlvLoop_cont (v a : Nat) (s : List Byte) :
    readvlvLoop a (contBytes v ++ s) = readvlvLoop (a * 128 ^ (base128 v).length + v) s := by
  induction v using base128_ind generalizing a s with
  | small v h =>
    obtain ⟨f1, f2, _, _⟩ := byte_facts v h
    rw [contBytes_small h, base128_small h]
    simp only [List.singleton_append, readvlvLoop, f1, f2, ne_eq, not_false_eq_true, if_true, Nat.shiftLeft_eq]
    simp
  | big v h ih =>
    obtain ⟨f1, f2, _, _⟩ := byte_facts (v % 128) (Nat.mod_lt _ (by decide))
    rw [contBytes_big h, List.append_assoc, ih]
    simp only [List.singleton_append, readvlvLoop, f1, f2, ne_eq, not_false_eq_true, if_true, Nat.shiftLeft_eq]
    rw [base128_big h, List.length_append, List.length_singleton, Nat.pow_succ 128]
    congr 1
    have : (a * 128 ^ (base128 (v / 128)).length + v / 128) * 2 ^ 7
        = a * (128 ^ (base128 (v / 128)).length * 128) + v / 128 * 128 := by
      rw [Nat.add_mul, Nat.mul_assoc]
    rw [Nat.pow_succ] at *
    omega

theorem readvlv_writevlv (v : Nat) (s : List Byte) : readvlv (writevlv v ++ s) = .ok (v, s) := by
  by_cases h : v < 128
  · obtain ⟨_, _, f3, _⟩ := byte_facts v h
    rw [writevlv_small h]
    simp [readvlv, readvlvLoop, f3]
  · have h : 128 ≤ v := by omega
    obtain ⟨_, _, f3, _⟩ := byte_facts (v % 128) (Nat.mod_lt _ (by decide))
    rw [writevlv_big h, List.append_assoc, readvlv, readvlvLoop_cont]
    simp only [List.singleton_append, readvlvLoop, f3, ne_eq, not_true, if_false, Nat.shiftLeft_eq]
    congr 2
    omega

theorem base128_length_bounds (v : Nat) :
    v < 128 ^ (base128 v).length ∧ ((base128 v).length = 1 ∨ 128 ^ ((base128 v).length - 1) ≤ v) := by
  induction v using base128_ind with
  | small v h => simp [base128_small h, h]
  | big v h ih =>
    rw [base128_big h, List.length_append, List.length_singleton]
    have hpos : 0 < (base128 (v / 128)).length := List.length_pos_iff.mpr (base128_ne_nil _)
    refine ⟨?_, Or.inr ?_⟩
    · rw [Nat.pow_succ]
      have := ih.1
      omega
    · rw [Nat.add_sub_cancel]
      rcases ih.2 with h1 | h1
      · rw [h1]; simpa using h
      · obtain ⟨k, hk⟩ : ∃ k, (base128 (v / 128)).length = k + 1 := ⟨_, (Nat.succ_pred_eq_of_pos hpos).symm⟩
        rw [hk] at h1 ⊢
        rw [Nat.pow_succ]
        simp only [Nat.add_sub_cancel] at h1
        omega

theorem base128_lt (v : Nat) : ∀ d ∈ base128 v, d < 128 := by
  induction v using base128_ind with
  | small v h => simp [base128_small h, h]
  | big v h ih =>
    intro d hd
    rw [base128_big h] at hd
    rcases List.mem_append.mp hd with hd | hd
    · exact ih d hd
    · simp only [List.mem_singleton] at hd; omega

theorem contBytes_range (v : Nat) : ∀ b ∈ contBytes v, 128 ≤ b ∧ b < 256 := by
  intro b hb
  obtain ⟨d, hd, rfl⟩ := List.mem_map.mp hb
  have hd := base128_lt v d hd
  obtain ⟨_, _, _, f⟩ := byte_facts d hd
  omega

theorem writevlv_length (v : Nat) : (writevlv v).length = (base128 v).length := by
  by_cases h : v < 128
  · simp [writevlv_small h, base128_small h]
  · rw [writevlv_big (by omega), base128_big (by omega)]
    simp [contBytes]

theorem writevlv_shape (v : Nat) :
    ∃ pre last, writevlv v = pre ++ [last] ∧ (∀ b ∈ pre, 128 ≤ b ∧ b < 256) ∧ last < 128 := by
  by_cases h : v < 128
  · exact ⟨[], v, by simp [writevlv_small h], by simp, h⟩
  · exact ⟨contBytes (v / 128), v % 128, writevlv_big (by omega), contBytes_range _, Nat.mod_lt _ (by decide)⟩

theorem readvlvLoop_pre (pre : List Byte) (h : ∀ b ∈ pre, 128 ≤ b ∧ b < 256) (a : Nat) :
    readvlvLoop a pre = .error .typeError := by
  induction pre generalizing a with
  | nil => rfl
  | cons b bs ih =>
    have hb := h b (by simp)
    have : b &&& 0x80 ≠ 0 := (byte_flag b hb.2).mpr hb.1
    simp only [readvlvLoop, this, ne_eq, not_false_eq_true, if_true]
    exact ih (fun x hx => h x (by simp [hx])) _

theorem readsvlv_writesvlv (v : Int) (s : List Byte) : readsvlv (writesvlv v ++ s) = .ok (v, s) := by
  by_cases h : v < 0
  · have hv : -(v.natAbs : Int) = v := by omega
    simp only [writesvlv, h, if_true, List.cons_append, List.nil_append, readsvlv]
    rw [readvlv_writevlv]
    simp [bind, Except.bind, hv]
  · have hv : (v.natAbs : Int) = v := by omega
    simp only [writesvlv, h, if_false, List.cons_append, List.nil_append, readsvlv]
    rw [readvlv_writevlv]
    simp [bind, Except.bind, hv]

/-! ### ASCII strings -/

theorem readasciiLoop_append (bs n rest : List Byte) (h : ∀ c ∈ n, c ≠ 0) :
    readasciiLoop bs (n ++ 0 :: rest) =
      if (bs ++ n).all (· < 128) then .ok (bs ++ n, rest) else .raise .unicodeError := by
  induction n generalizing bs with
  | nil => simp [readasciiLoop]
  | cons c n ih =>
    have h0 : c ≠ 0 := h c (by simp)
    rw [List.cons_append, readasciiLoop, if_pos h0, ih _ (fun x hx => h x (by simp [hx]))]
    simp only [List.append_assoc, List.singleton_append]

theorem readascii_writeascii {n : List Nat} {bs : List Byte} (h : writeascii n = .ok bs) (h0 : ∀ c ∈ n, c ≠ 0)
    (rest : List Byte) : readascii (bs ++ rest) = .ok (n, rest) := by
  unfold writeascii at h
  split at h
  · rename_i ha
    cases h
    rw [List.append_assoc, List.singleton_append, readascii, readasciiLoop_append _ _ _ h0]
    simp only [List.nil_append, ha, if_true]
  · cases h

/-- `readascii` agrees with the loop of pf.py:116-120: started with nothing read and the first byte read, the loop ends
exactly when there is a zero byte, with the bytes before it collected. -/
theorem readascii_loop_ends (pre rest bs : List Byte) (h : ∀ c ∈ pre, c ≠ 0) :
    While asciiCond asciiBody (bs, (pre ++ 0 :: rest).head?, (pre ++ 0 :: rest).tail) (bs ++ pre, some 0, rest) := by
  induction pre generalizing bs with
  | nil => simpa using While.done (cond := asciiCond) (body := asciiBody) (s := (bs, some 0, rest)) (by simp [asciiCond])
  | cons c pre ih =>
    apply While.step
    · simp [asciiCond, h c (by simp)]
    · have := ih (bs ++ [c]) (fun x hx => h x (by simp [hx]))
      simpa [asciiBody] using this

/-- Without a zero byte the loop never ends. -/
theorem readascii_loop_diverges (s bs : List Byte) (h : ∀ c ∈ s, c ≠ 0) :
    ¬ ∃ t, While asciiCond asciiBody (bs, s.head?, s.tail) t := by
  apply While.diverges (I := fun st => (∀ c, st.2.1 = some c → c ≠ 0) ∧ ∀ c ∈ st.2.2, c ≠ 0)
  · rintro ⟨a, b, c⟩ ⟨h1, h2⟩
    intro h3
    simp only at h3
    exact h1 0 h3 rfl
  · rintro ⟨a, b, c⟩ ⟨h1, h2⟩
    simp only at h2
    constructor
    · intro x hx
      simp only [asciiBody] at hx
      exact h2 x (List.mem_of_mem_head? hx)
    · intro x hx
      simp only [asciiBody] at hx
      exact h2 x (List.mem_of_mem_tail hx)
  · constructor
    · intro c hc; exact h c (List.mem_of_mem_head? hc)
    · intro c hc; exact h c (List.mem_of_mem_tail hc)

/-- The functional model returns `hang` exactly when no zero byte is left. -/
theorem readascii_hang_iff (s : List Byte) : readascii s = .hang ↔ ∀ c ∈ s, c ≠ 0 := by
  have : ∀ bs, readasciiLoop bs s = .hang ↔ ∀ c ∈ s, c ≠ 0 := by
    induction s with
    | nil => simp [readasciiLoop]
    | cons c s ih =>
      intro bs
      by_cases h : c = 0
      · simp only [readasciiLoop, h]
        split <;> simp_all
        split <;> simp
      · simp [readasciiLoop, h, ih]
  exact this []

end Coral
