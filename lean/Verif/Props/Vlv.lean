import Verif.Proofs.Vlv

/-!
# Properties C38-C39: variable-length integers (`coral/pf.py`, `coral/rg.py`)
-/
namespace Coral

/-- **C38**: reading after writing gives the number back and leaves exactly the bytes that followed. -/
theorem C38_vlv_roundtrip (v : Nat) (rest : List Byte) : readvlv (writevlv v ++ rest) = .ok (v, rest) :=
  readvlv_writevlv v rest

/-- **C38**: the encoding is one or more bytes, all but the last with the top bit set, the last one without. -/
theorem C38_vlv_top_bits (v : Nat) :
    ∃ pre last, writevlv v = pre ++ [last] ∧ (∀ b ∈ pre, 128 ≤ b ∧ b < 256) ∧ last < 128 :=
  writevlv_shape v

/-- **C38**: no encoding is a prefix of another one; in particular different numbers have different encodings. -/
theorem C38_vlv_prefix_free (v w : Nat) (r r' : List Byte) (h : writevlv v ++ r = writevlv w ++ r') :
    v = w ∧ r = r' := by
  have h1 := readvlv_writevlv v r
  rw [h, readvlv_writevlv] at h1
  cases h1
  exact ⟨rfl, rfl⟩

/-- **C38**: the number of bytes is the least `n ≥ 1` with `v < 128^n`. -/
theorem C38_vlv_minimal (v n : Nat) (hn : 1 ≤ n) : (writevlv v).length ≤ n ↔ v < 128 ^ n := by
  rw [writevlv_length]
  obtain ⟨h1, h2⟩ := base128_length_bounds v
  have hpos : 0 < (base128 v).length := List.length_pos_iff.mpr (base128_ne_nil _)
  constructor
  · intro h
    exact Nat.lt_of_lt_of_le h1 (Nat.pow_le_pow_right (by decide) h)
  · intro h
    rcases h2 with h2 | h2
    · omega
    · have : 128 ^ ((base128 v).length - 1) < 128 ^ n := Nat.lt_of_le_of_lt h2 h
      have := (Nat.pow_lt_pow_iff_right (a := 128) (by decide)).mp this
      omega

/-- **C38**: a truncated encoding is never mistaken for a number: reading any proper prefix raises. -/
theorem C38_vlv_truncated (v : Nat) (p : List Byte) (s : List Byte) (hs : s ≠ []) (h : writevlv v = p ++ s) :
    readvlv p = .error .typeError := by
  obtain ⟨pre, last, h1, h2, _⟩ := writevlv_shape v
  apply readvlvLoop_pre
  intro b hb
  rw [h1] at h
  have : p <+: pre := by
    rcases List.eq_nil_or_concat s with h0 | ⟨s', x, hx⟩
    · exact absurd h0 hs
    · rw [hx, List.concat_eq_append, ← List.append_assoc] at h
      have := List.append_inj_left' h (by simp)
      exact ⟨s', this.symm⟩
  exact h2 b (this.subset hb)

/-- A three byte encoding, and one followed by other bytes. -/
example : writevlv 20000 = [0x81, 0x9c, 0x20] := by
  rw [writevlv_big (by decide), contBytes_big (by decide), contBytes_small (by decide)]; rfl
example : readvlv [0x81, 0x9c, 0x20, 7] = .ok (20000, [7]) := by decide
example : (writevlv 20000).length ≤ 3 ∧ ¬ (writevlv 20000).length ≤ 2 := by
  rw [C38_vlv_minimal _ _ (by decide), C38_vlv_minimal _ _ (by decide)]; decide

/-- **C39**: signed numbers read back, leaving the following bytes. -/
theorem C39_svlv_roundtrip (v : Int) (rest : List Byte) : readsvlv (writesvlv v ++ rest) = .ok (v, rest) :=
  readsvlv_writesvlv v rest

/-- **C39**: distinct integers have distinct, prefix-free encodings. -/
theorem C39_svlv_prefix_free (v w : Int) (r r' : List Byte) (h : writesvlv v ++ r = writesvlv w ++ r') :
    v = w ∧ r = r' := by
  have h1 := readsvlv_writesvlv v r
  rw [h, readsvlv_writesvlv] at h1
  cases h1
  exact ⟨rfl, rfl⟩

example : readsvlv [0xff, 0x81, 0x00, 9] = .ok (-128, [9]) := by decide

end Coral
