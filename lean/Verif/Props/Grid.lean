import Verif.Proofs.Grid
import Mathlib.Algebra.Order.Ring.Rat
import Mathlib.Data.Rat.Floor

/-!
# Properties C32-C37 (`coral/grid.py`)
-/
set_option linter.unusedSectionVars false
namespace Coral

section
variable {K : Type} [Field K] [LinearOrder K] [IsStrictOrderedRing K] [FloorRing K]

/-- **C32**: a number that can be encoded decodes to one at most half a quantum away, inside the declared range. The
number of quanta is `256^size`, one less for a nullable column. -/
theorem C32_fvar_error_bound {minv maxv : K} {size : Nat} {nullable : Bool} {v : FVar K}
    (hv : FVar.init minv maxv size nullable = .ok v) {x : K} {bs : List Byte} (h : v.encode (some x) = .ok bs) :
    ∃ y, v.decode bs = .ok (some y) ∧
      |y - x| ≤ (maxv - minv) / (2 * ((256 : K) ^ size - if nullable then 1 else 0)) ∧ minv ≤ y ∧ y ≤ maxv := by
  obtain ⟨hlt, hsz, rfl⟩ := FVar.init_ok hv
  have hspan := FVar.span_pos hsz nullable
  have hcast : (256 : K) ^ size - (if nullable then 1 else 0) = ((256 ^ size - b2i nullable : Int) : K) := by
    cases nullable <;> simp [b2i]
  rw [hcast]
  generalize (256 ^ size - b2i nullable : Int) = span at *
  obtain ⟨hx1, hx2, i, hi, his, hib, rfl⟩ := FVar.encode_ok hlt hspan h
  have hd : 0 < maxv - minv := sub_pos.mpr hlt
  have hs : (0 : K) < span := by exact_mod_cast hspan
  refine ⟨minv + ((i : Int) : K) * (maxv - minv) / (span : K), ?_, ?_, ?_, ?_⟩
  · simp only [FVar.decode, unpackU_beBytes hib]
    exact FVar.value_some (by omega) his
  · have hr := pyRound_abs ((x - minv) * (span : K) / (maxv - minv))
    rw [← hi] at hr
    have e : minv + ((i : Int) : K) * (maxv - minv) / (span : K) - x =
        (((i : Int) : K) - (x - minv) * (span : K) / (maxv - minv)) * ((maxv - minv) / span) := by
      field_simp; ring
    rw [e, abs_mul, abs_of_pos (div_pos hd hs)]
    calc _ ≤ 1 / 2 * ((maxv - minv) / span) := mul_le_mul_of_nonneg_right hr (div_pos hd hs).le
      _ = _ := by field_simp
  · have : 0 ≤ ((i : Int) : K) * (maxv - minv) / (span : K) := by
      have : (0 : K) ≤ ((i : Int) : K) := by exact_mod_cast Int.natCast_nonneg i
      positivity
    linarith
  · have : ((i : Int) : K) * (maxv - minv) / (span : K) ≤ maxv - minv := by
      rw [div_le_iff₀ hs, mul_comm (maxv - minv)]
      exact mul_le_mul_of_nonneg_right (by exact_mod_cast his) hd.le
    linarith

/-- **C32**: the encoding is monotone: larger numbers have larger big-endian codes. -/
theorem C32_fvar_monotone {minv maxv : K} {size : Nat} {nullable : Bool} {v : FVar K}
    (hv : FVar.init minv maxv size nullable = .ok v) {x y : K} {bx by' : List Byte}
    (hx : v.encode (some x) = .ok bx) (hy : v.encode (some y) = .ok by') (hxy : x ≤ y) : beVal bx ≤ beVal by' := by
  obtain ⟨hlt, hsz, rfl⟩ := FVar.init_ok hv
  have hspan := FVar.span_pos hsz nullable
  generalize (256 ^ size - b2i nullable : Int) = span at *
  obtain ⟨_, _, i, hi, _, hib, rfl⟩ := FVar.encode_ok hlt hspan hx
  obtain ⟨_, _, j, hj, _, hjb, rfl⟩ := FVar.encode_ok hlt hspan hy
  rw [beVal_beBytes, beVal_beBytes, Nat.mod_eq_of_lt hib, Nat.mod_eq_of_lt hjb]
  have hd : 0 < maxv - minv := sub_pos.mpr hlt
  have hs : (0 : K) < span := by exact_mod_cast hspan
  have : (i : Int) ≤ j := by
    rw [hi, hj]
    apply pyRound_mono
    apply div_le_div_of_nonneg_right _ hd.le
    exact mul_le_mul_of_nonneg_right (by linarith) hs.le
  exact_mod_cast this

/-- **C32**: every byte string of the right size decodes to a number in range, whose encoding is that byte string. -/
theorem C32_fvar_stable {minv maxv : K} {size : Nat} {nullable : Bool} {v : FVar K}
    (hv : FVar.init minv maxv size nullable = .ok v) (bs : List Byte) (hlen : bs.length = size)
    (hb : ∀ b ∈ bs, b < 256) :
    ∃ y, v.decode bs = .ok (some y) ∧ minv ≤ y ∧ y ≤ maxv ∧ v.encode (some y) = .ok bs := by
  obtain ⟨hlt, hsz, rfl⟩ := FVar.init_ok hv
  have hspan := FVar.span_pos hsz nullable
  have hbig : (256 : Int) ^ size - 1 ≤ 256 ^ size - b2i nullable := by
    have : b2i nullable ≤ 1 := by cases nullable <;> simp [b2i]
    omega
  have hval := beVal_lt bs hb
  rw [hlen] at hval
  have hbe : beBytes size (beVal bs) = bs := by rw [← hlen]; exact beBytes_beVal bs hb
  have hi : ((beVal bs : Nat) : Int) ≤ 256 ^ size - b2i nullable := by
    have : ((beVal bs : Nat) : Int) < 256 ^ size := by exact_mod_cast hval
    omega
  generalize (256 ^ size - b2i nullable : Int) = span at *
  have hd : 0 < maxv - minv := sub_pos.mpr hlt
  have hs : (0 : K) < span := by exact_mod_cast hspan
  have hy0 : minv ≤ minv + ((beVal bs : Int) : K) * (maxv - minv) / (span : K) := by
    have : (0 : K) ≤ ((beVal bs : Int) : K) := by exact_mod_cast Int.natCast_nonneg _
    have : 0 ≤ ((beVal bs : Int) : K) * (maxv - minv) / (span : K) := by positivity
    linarith
  have hy1 : minv + ((beVal bs : Int) : K) * (maxv - minv) / (span : K) ≤ maxv := by
    have : ((beVal bs : Int) : K) * (maxv - minv) / (span : K) ≤ maxv - minv := by
      rw [div_le_iff₀ hs, mul_comm (maxv - minv)]
      exact mul_le_mul_of_nonneg_right (by exact_mod_cast hi) hd.le
    linarith
  refine ⟨minv + ((beVal bs : Int) : K) * (maxv - minv) / (span : K), ?_, hy0, hy1, ?_⟩
  · simp only [FVar.decode, unpackU, hlen, if_true]
    exact FVar.value_some (by omega) hi
  · obtain ⟨k1, _, _⟩ := FVar.index_some (size := size) (nullable := nullable) hlt hspan hy0 hy1
    have e : (minv + ((beVal bs : Int) : K) * (maxv - minv) / (span : K) - minv) * (span : K) / (maxv - minv) =
        ((beVal bs : Int) : K) := by field_simp; ring
    rw [e, pyRound_intCast] at k1
    simp only [FVar.encode, k1]
    show packU size ((beVal bs : Nat) : Int) = .ok bs
    rw [packU_ok]
    refine ⟨by omega, by exact_mod_cast hval, ?_⟩
    rw [Int.toNat_natCast, hbe]

/-- **C33**, partial: in a nullable column every number of the range can be encoded; in a non-nullable one every number
that is not within half a quantum of the upper end. Missing: the upper end of a non-nullable column and `None`, for
which encoding fails, see `C33_fvar_domain_violated`. -/
theorem C33_fvar_domain_partial {minv maxv : K} {size : Nat} {nullable : Bool} {v : FVar K}
    (hv : FVar.init minv maxv size nullable = .ok v) {x : K} (h1 : minv ≤ x) (h2 : x ≤ maxv)
    (h3 : nullable = true ∨ x < maxv - (maxv - minv) / (2 * (256 : K) ^ size)) :
    ∃ bs, v.encode (some x) = .ok bs := by
  obtain ⟨hlt, hsz, rfl⟩ := FVar.init_ok hv
  have hspan := FVar.span_pos hsz nullable
  have hd : 0 < maxv - minv := sub_pos.mpr hlt
  obtain ⟨k1, k2, k3⟩ := FVar.index_some (size := size) (nullable := nullable) hlt hspan h1 h2
  have hfit : pyRound ((x - minv) * ((256 ^ size - b2i nullable : Int) : K) / (maxv - minv)) < 256 ^ size := by
    rcases h3 with hn | hx
    · have : b2i nullable = 1 := by rw [hn]; rfl
      omega
    · cases nullable with
      | true =>
        have : b2i true = 1 := rfl
        omega
      | false =>
        simp only [b2i] at *
        have hr := (abs_le.mp (pyRound_abs ((x - minv) * ((256 ^ size - 0 : Int) : K) / (maxv - minv)))).2
        have hlt' : (x - minv) * ((256 ^ size - 0 : Int) : K) / (maxv - minv) < (256 : K) ^ size - 1 / 2 := by
          push_cast
          rw [div_lt_iff₀ hd, sub_zero]
          have h256 : (0 : K) < 256 ^ size := by positivity
          have : (maxv - minv) / (2 * (256 : K) ^ size) < maxv - x := by linarith
          rw [div_lt_iff₀ (by positivity)] at this
          linarith
        have : ((pyRound ((x - minv) * ((256 ^ size - 0 : Int) : K) / (maxv - minv)) : Int) : K) <
            ((256 ^ size : Int) : K) := by push_cast at *; linarith
        exact_mod_cast this
  refine ⟨beBytes size (pyRound ((x - minv) * ((256 ^ size - b2i nullable : Int) : K) / (maxv - minv))).toNat, ?_⟩
  simp only [FVar.encode, k1]
  show packU size _ = _
  rw [packU_ok]
  exact ⟨k2, by rw [Nat.cast_pow]; exact hfit, rfl⟩

/-- **C33** is false as stated: in every non-nullable column the upper end of the range, and in every nullable column
`None`, make `encode` raise `struct.error`. -/
theorem C33_fvar_domain_violated {minv maxv : K} {size : Nat} {nullable : Bool} {v : FVar K}
    (hv : FVar.init minv maxv size nullable = .ok v) :
    (nullable = false → v.encode (some maxv) = .error .structError) ∧
      (nullable = true → v.encode none = .error .structError) := by
  obtain ⟨hlt, hsz, rfl⟩ := FVar.init_ok hv
  have hspan := FVar.span_pos hsz nullable
  have hd : 0 < maxv - minv := sub_pos.mpr hlt
  constructor
  · intro hn
    obtain ⟨k1, k2, k3⟩ := FVar.index_some (size := size) (nullable := nullable) hlt hspan hlt.le le_rfl
    have e : (maxv - minv) * ((256 ^ size - b2i nullable : Int) : K) / (maxv - minv) =
        ((256 ^ size - b2i nullable : Int) : K) := by field_simp
    rw [e, pyRound_intCast] at k1
    simp only [FVar.encode, k1]
    show packU size _ = _
    apply packU_error
    have : b2i nullable = 0 := by rw [hn]; rfl
    rw [this]
    push_cast
    omega
  · intro hn
    subst hn
    simp only [FVar.encode, FVar.index, pyAssert, if_true]
    show packU size _ = _
    apply packU_error
    simp only [b2i, if_true]
    push_cast
    omega

/-- **C33**, exactly: which numbers of the range cannot be encoded. In a non-nullable column it is those within half a quantum of the upper end (the
middle rounds to the even index, which does not fit); in a nullable column there is none. -/
theorem C33_fvar_domain_exact {minv maxv : K} {size : Nat} {nullable : Bool} {v : FVar K}
    (hv : FVar.init minv maxv size nullable = .ok v) {x : K} (h1 : minv ≤ x) (h2 : x ≤ maxv) :
    v.encode (some x) = .error .structError ↔ nullable = false ∧ maxv - (maxv - minv) / (2 * (256 : K) ^ size) ≤ x := by
  constructor
  · intro h
    by_contra hc
    obtain ⟨bs, hb⟩ := C33_fvar_domain_partial hv h1 h2 (by
      cases nullable with
      | true => exact Or.inl rfl
      | false => exact Or.inr (not_le.mp (fun h => hc ⟨rfl, h⟩)))
    rw [h] at hb
    cases hb
  · rintro ⟨rfl, hx⟩
    obtain ⟨hlt, hsz, rfl⟩ := FVar.init_ok hv
    have hspan := FVar.span_pos hsz false
    have hd : 0 < maxv - minv := sub_pos.mpr hlt
    obtain ⟨k1, k2, k3⟩ := FVar.index_some (size := size) (nullable := false) hlt hspan h1 h2
    simp only [FVar.encode, k1]
    show packU size _ = _
    apply packU_error
    rw [not_and, not_lt]
    intro _
    have hhalf : ((256 ^ size : Int) : K) - 1 / 2 ≤ (x - minv) * ((256 ^ size - b2i false : Int) : K) / (maxv - minv) := by
      rw [show b2i false = 0 from rfl, sub_zero, le_div_iff₀ hd]
      push_cast
      have : maxv - x ≤ (maxv - minv) / (2 * (256 : K) ^ size) := by linarith
      rw [le_div_iff₀ (by positivity)] at this
      linarith
    have hm := pyRound_mono hhalf
    refine le_trans ?_ hm
    rw [Nat.cast_pow, Nat.cast_ofNat]
    have heven : (256 ^ size : Int) % 2 = 0 := by
      obtain ⟨k, hk⟩ : ∃ k, size = k + 1 := ⟨size - 1, by
        have : size ≠ 0 := by
          rintro rfl
          simp at hsz
        omega⟩
      rw [hk, pow_succ]
      omega
    have hfl : ⌊((256 ^ size : Int) : K) - 1 / 2⌋ = 256 ^ size - 1 := by
      rw [Int.floor_eq_iff]
      push_cast
      constructor <;> linarith
    have hdiff : ((256 ^ size : Int) : K) - 1 / 2 - ((256 ^ size - 1 : Int) : K) = 1 / 2 := by
      push_cast
      ring
    simp only [pyRound, hfl]
    rw [hdiff, if_neg (lt_irrefl _), if_neg (lt_irrefl _), if_neg (by omega)]
    omega

end

/-- A one byte percentage: 50 is encoded and comes back as 50, 100 cannot be encoded. -/
example : ∃ v, FVar.init (0 : ℚ) 100 1 false = .ok v ∧ v.encode (some 50) = .ok [128] ∧
    v.decode [128] = .ok (some 50) ∧ v.encode (some 100) = .error .structError :=
  ⟨⟨0, 100, 1, 100, 256, false⟩, by decide +kernel, by decide +kernel, by decide +kernel, by decide +kernel⟩

/-- **C34**: for every value of the domain, `value(index(x)) == x`; the index of an in-range integer is a natural
number that fits in `size` bytes. -/
theorem C34_ivar_index_value {minv maxv : Int} {nullable : Bool} {v : IVar}
    (hv : IVar.init minv maxv nullable = .ok v) :
    (∀ x, minv ≤ x → x ≤ maxv → ∃ i : Nat, v.index (some x) = .ok i ∧ v.value i = .ok (some x) ∧ i < 256 ^ v.size) ∧
      (nullable = true → ∃ i, v.index none = .ok i ∧ v.value i = .ok none) := by
  obtain ⟨h1, h2, h3, h4, h5⟩ := IVar.init_ok hv
  rw [h3]
  have hb : 0 ≤ b2i nullable := by cases nullable <;> simp [b2i]
  constructor
  · intro x hx1 hx2
    refine ⟨(x - minv).toNat, ?_, ?_, ?_⟩
    · have : ((x - minv).toNat : Int) = x - minv := by omega
      rw [this]
      simp [IVar.index, pyAssert, hx1, hx2, bind, Except.bind, pure, Except.pure]
    · have : ((x - minv).toNat : Int) = x - minv := by omega
      rw [this]
      have hne : ¬ x - minv = (256 ^ v.size - b2i nullable) + 1 := by omega
      have hle : x - minv ≤ 256 ^ v.size - b2i nullable := by omega
      simp [IVar.value, hne, hle, hx1, pyAssert, bind, Except.bind, pure, Except.pure]
    · have : ((x - minv).toNat : Int) < 256 ^ v.size := by omega
      exact_mod_cast this
  · intro hn
    subst hn
    refine ⟨256 ^ v.size - b2i true + 1, ?_, ?_⟩
    · simp [IVar.index, pyAssert, bind, Except.bind, pure, Except.pure]
    · simp [IVar.value, pyAssert, bind, Except.bind, pure, Except.pure]

/-- **C34**: the size is the smallest of 1, 2, 4, 8 bytes with room for all the indices (and one spare if nullable);
the constructor raises `ValueError` exactly when not even 8 bytes suffice. -/
theorem C34_ivar_size_minimal (minv maxv : Int) (nullable : Bool) (hlt : minv < maxv) :
    (∀ v, IVar.init minv maxv nullable = .ok v →
      v.size ∈ [1, 2, 4, 8] ∧ maxv - minv + (if nullable then 1 else 0) < 256 ^ v.size ∧
        ∀ s ∈ [1, 2, 4, 8], maxv - minv + (if nullable then 1 else 0) < (256 : Int) ^ s → v.size ≤ s) ∧
      (IVar.init minv maxv nullable = .error .valueError ↔ 2 ^ 64 ≤ maxv - minv + (if nullable then 1 else 0)) := by
  have hb : b2i nullable = if nullable then 1 else 0 := by cases nullable <;> rfl
  constructor
  · intro v hv
    obtain ⟨_, h2, h3, h4, h5⟩ := IVar.init_ok hv
    rw [hb] at h4 h5
    refine ⟨h2, by omega, fun s hs h => h5 s hs (by omega)⟩
  · have ha : pyAssert (decide (maxv > minv)) = .ok () := by simp [pyAssert, hlt]
    have hinit : IVar.init minv maxv nullable = .error .valueError ↔
        IVar.pickSize (maxv - minv) nullable = .error .valueError := by
      simp only [IVar.init, ha]
      cases h : IVar.pickSize (maxv - minv) nullable <;> simp [bind, Except.bind, pure, Except.pure]
    rw [hinit]
    have e1 : sizeSpan 1 = 256 := rfl
    have e2 : sizeSpan 2 = 65536 := rfl
    have e4 : sizeSpan 4 = 4294967296 := rfl
    have e8 : sizeSpan 8 = 18446744073709551616 := rfl
    rw [IVar.pickSize, e1, e2, e4, e8, ← hb]
    generalize b2i nullable = n
    generalize maxv - minv = d
    split
    · simp; omega
    · split
      · simp; omega
      · split
        · simp; omega
        · split
          · simp; omega
          · simp; omega

example : ∃ v, IVar.init (-100) 155 false = .ok v ∧ v.size = 1 ∧ v.index (some 155) = .ok 255 :=
  ⟨⟨-100, 155, 1, 256, false, none⟩, by decide, rfl, by decide⟩
example : ∃ v, IVar.init (-100) 155 true = .ok v ∧ v.size = 2 := ⟨⟨-100, 155, 2, 65535, true, none⟩, by decide, rfl⟩

/-- **C35** is false as stated: `encode` and `decode` of every `IVar` raise `AttributeError`, because `fmt` is never
assigned. -/
theorem C35_ivar_codec_violated {minv maxv : Int} {nullable : Bool} {v : IVar}
    (hv : IVar.init minv maxv nullable = .ok v) (x : Option Int) (data : List Byte) :
    v.encode x = .error .attributeError ∧ v.decode data = .error .attributeError := by
  obtain ⟨_, _, h3, _, _⟩ := IVar.init_ok hv
  rw [h3]
  exact ⟨rfl, rfl⟩

/-- **C35**, partial: if the missing attribute is supplied (`v.fmt = '>' + SIZE_FORMAT[v.size]`), every integer of the
range round-trips in exactly `size` bytes. Missing: the class as written (see `C35_ivar_codec_violated`), and `None`,
which then raises `struct.error`. -/
theorem C35_ivar_codec_partial {minv maxv : Int} {nullable : Bool} {v : IVar}
    (hv : IVar.init minv maxv nullable = .ok v) :
    (∀ x, minv ≤ x → x ≤ maxv → ∃ bs, { v with fmt := some v.size }.encode (some x) = .ok bs ∧
      bs.length = v.size ∧ { v with fmt := some v.size }.decode bs = .ok (some x)) ∧
    (nullable = true → { v with fmt := some v.size }.encode none = .error .structError) := by
  constructor
  · intro x h1 h2
    obtain ⟨i, k1, k2, k3⟩ := (C34_ivar_index_value hv).1 x h1 h2
    refine ⟨beBytes v.size i, ?_, beBytes_length _ _, ?_⟩
    · have k1' : IVar.index { v with fmt := some v.size } (some x) = .ok (i : Int) := k1
      simp only [IVar.encode, IVar.getFmt, k1']
      show packU v.size (i : Int) = _
      rw [packU_ok]
      exact ⟨by omega, by exact_mod_cast k3, by simp⟩
    · have k2' : IVar.value { v with fmt := some v.size } (i : Int) = .ok (some x) := k2
      have : unpackU v.size (beBytes v.size i) = .ok i := unpackU_beBytes k3
      simp only [IVar.decode, IVar.getFmt, bind, Except.bind, this]
      exact k2'
  · intro hn
    obtain ⟨_, _, h3, _, _⟩ := IVar.init_ok hv
    subst hn
    rw [h3]
    simp only [IVar.encode, IVar.getFmt, IVar.index, pyAssert, if_true]
    show packU v.size _ = _
    apply packU_error
    simp only [b2i, if_true]
    push_cast
    omega

/-- **C36**: a string whose UTF-8 form fits and that does not end in NUL comes back, from exactly `size` bytes. -/
theorem C36_svar_roundtrip (v : SVar) (hs : 0 < v.size) (s data : List Nat) (hd : utf8Enc s = some data)
    (hfit : data.length ≤ v.size) (hnul : s.getLast? ≠ some 0) :
    ∃ bs, v.encode (some s) = .ok bs ∧ bs.length = v.size ∧ v.decode bs = .ok (some s) := by
  have h : v.encode (some s) = .ok (data ++ List.replicate (v.size - data.length) 0) := by
    simp [SVar.encode, hd, pyAssert, hfit, bind, Except.bind, pure, Except.pure]
  exact ⟨_, h, SVar.encode_length h, SVar.decode_encode_some h hs hnul⟩

/-- **C36**: `None` comes back from a nullable column and its code is not the code of any string; a column that is not
nullable refuses it. -/
theorem C36_svar_none (v : SVar) (hs : 0 < v.size) :
    (v.nullable = true → ∃ bs, v.encode none = .ok bs ∧ bs.length = v.size ∧ v.decode bs = .ok none ∧
      ∀ s, v.encode (some s) ≠ .ok bs) ∧
    (v.nullable = false → v.encode none = .error .assertionError) := by
  constructor
  · intro hn
    have h : v.encode none = .ok (List.replicate v.size 0xff) := by
      simp [SVar.encode, pyAssert, hn, bind, Except.bind, pure, Except.pure]
    refine ⟨_, h, SVar.encode_length h, ?_, fun s hc => SVar.encode_not_ff hc hs rfl⟩
    simp [SVar.decode, pyAssert, hn, bind, Except.bind, pure, Except.pure]
  · intro hn
    simp [SVar.encode, pyAssert, hn, bind, Except.bind]

/-- **C36**: too long a text raises `AssertionError`; nothing is silently truncated. -/
theorem C36_svar_too_long (v : SVar) (s data : List Nat) (hd : utf8Enc s = some data) (h : v.size < data.length) :
    v.encode (some s) = .error .assertionError := by
  have : ¬ data.length ≤ v.size := by omega
  simp [SVar.encode, hd, pyAssert, this, bind, Except.bind]

/-- "São" in four and six bytes. -/
example : (SVar.mk 4 true).encode (some [83, 227, 111]) = .ok [83, 0xc3, 0xa3, 111] ∧
    (SVar.mk 6 true).decode [83, 0xc3, 0xa3, 111, 0, 0] = .ok (some [83, 227, 111]) ∧
    (SVar.mk 3 true).encode (some [83, 227, 111]) = .error .assertionError := by decide

section
variable {K : Type} [Field K] [LinearOrder K] [IsStrictOrderedRing K] [FloorRing K]

/-- **C37**: when a row can be encoded, the result has exactly `row.size` bytes, and decoding it gives, column by
column, what that column's own `decode` gives on that column's own `encode`. -/
theorem C37_row_roundtrip (fields : List (Column K)) (hf : ∀ f ∈ fields, f.Made) (values : List (GVal K))
    (hlen : fields.length ≤ values.length) (data : List Byte) (h : growEncode fields values = .ok data) :
    data.length = growSize fields ∧
      growDecode fields data = (fields.zip values).mapM (fun fv => do let d ← fv.1.encode fv.2; fv.1.decode d) := by
  simp only [growEncode, bind_ok, pyAssert_ok, beq_iff_eq] at h
  obtain ⟨d, h1, _, h2, h3⟩ := h
  cases h3
  refine ⟨h2, ?_⟩
  have := growLoop_join fields hf values data h1 hlen [] []
  simpa [growDecode] using this

/-- **C37**: encoding a full row succeeds exactly when every column can encode its value. -/
theorem C37_row_encodes (fields : List (Column K)) (hf : ∀ f ∈ fields, f.Made) (values : List (GVal K))
    (hlen : fields.length = values.length) :
    (∃ data, growEncode fields values = .ok data) ↔ ∀ fv ∈ fields.zip values, ∃ d, fv.1.encode fv.2 = .ok d := by
  have key : ∀ (fs : List (Column K)) (vs : List (GVal K)), fs.length = vs.length →
      ((∃ d, growJoin fs vs = .ok d) ↔ ∀ fv ∈ fs.zip vs, ∃ d, fv.1.encode fv.2 = .ok d) := by
    intro fs
    induction fs with
    | nil => intro vs _; simp [growJoin]
    | cons f fs ih =>
      intro vs hl
      cases vs with
      | nil => simp at hl
      | cons v vs =>
        simp only [growJoin, bind_ok, List.zip_cons_cons, List.mem_cons, forall_eq_or_imp]
        rw [← ih vs (by simpa using hl)]
        constructor
        · rintro ⟨_, d, h1, ds, h2, _⟩; exact ⟨⟨d, h1⟩, ds, h2⟩
        · rintro ⟨⟨d, h1⟩, ds, h2⟩; exact ⟨d ++ ds, d, h1, ds, h2, rfl⟩
  rw [← key fields values hlen]
  constructor
  · rintro ⟨d, h⟩
    simp only [growEncode, bind_ok] at h
    obtain ⟨d, h1, _⟩ := h
    exact ⟨d, h1⟩
  · rintro ⟨d, h⟩
    refine ⟨d, ?_⟩
    have := growJoin_length fields hf values d h
    rw [← hlen, List.take_length] at this
    simp [growEncode, h, pyAssert, this, bind, Except.bind, pure, Except.pure]

/-- **C37**: when values are missing for columns that take space, a row whose other values can be encoded raises
`AssertionError`. -/
theorem C37_row_missing (fields : List (Column K)) (hf : ∀ f ∈ fields, f.Made) (values : List (GVal K))
    (hmiss : 0 < growSize (fields.drop values.length))
    (d : List Byte) (h : growJoin fields values = .ok d) :
    growEncode fields values = .error .assertionError := by
  have hl := growJoin_length fields hf values d h
  have hs : growSize fields = growSize (fields.take values.length) + growSize (fields.drop values.length) := by
    simp only [growSize]
    rw [← List.sum_append, ← List.map_append, List.take_append_drop]
  have : ¬ d.length = growSize fields := by omega
  simp [growEncode, h, pyAssert, this, bind, Except.bind]

end

/-- A row of a text and a percentage. -/
example : ∃ v, FVar.init (0 : ℚ) 100 1 true = .ok v ∧
    growEncode [.svar ⟨4, false⟩, .fvar v] [.str [83, 227, 111], .num 100] = .ok [83, 0xc3, 0xa3, 111, 255] ∧
    growDecode [.svar ⟨4, false⟩, .fvar v] [83, 0xc3, 0xa3, 111, 255] = .ok [.str [83, 227, 111], .num 100] ∧
    growEncode [.svar ⟨4, false⟩, .fvar v] [.str [83, 227, 111]] = .error .assertionError :=
  ⟨⟨0, 100, 1, 100, 255, true⟩, by decide +kernel, by decide +kernel, by decide +kernel, by decide +kernel⟩

end Coral
