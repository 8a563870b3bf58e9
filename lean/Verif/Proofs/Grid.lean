import Verif.Model.Grid
import Mathlib.Tactic.FieldSimp
import Mathlib.Tactic.Positivity
import Mathlib.Tactic.IntervalCases

set_option linter.unusedSectionVars false
namespace Coral

theorem pyAssert_ok {c : Bool} {u : Unit} : pyAssert c = .ok u ↔ c = true := by
  unfold pyAssert; split <;> simp_all

theorem bind_ok {ε α β : Type} {x : Except ε α} {f : α → Except ε β} {b : β} :
    (x >>= f) = .ok b ↔ ∃ a, x = .ok a ∧ f a = .ok b := by
  cases x <;> simp [bind, Except.bind]

theorem packU_ok {n : Nat} {v : Int} {bs : List Byte} :
    packU n v = .ok bs ↔ 0 ≤ v ∧ v < (256 ^ n : Nat) ∧ bs = beBytes n v.toNat := by
  unfold packU
  split
  · rename_i h
    constructor
    · intro e; cases e; exact ⟨h.1, h.2, rfl⟩
    · rintro ⟨_, _, rfl⟩; rfl
  · rename_i h
    constructor
    · intro e; cases e
    · rintro ⟨h1, h2, _⟩; exact absurd ⟨h1, h2⟩ h

theorem packU_error {n : Nat} {v : Int} (h : ¬ (0 ≤ v ∧ v < (256 ^ n : Nat))) : packU n v = .error .structError := by
  unfold packU; rw [if_neg h]

theorem unpackU_beBytes {n v : Nat} (h : v < 256 ^ n) : unpackU n (beBytes n v) = .ok v := by
  unfold unpackU
  rw [if_pos (beBytes_length n v), beVal_beBytes, Nat.mod_eq_of_lt h]

namespace FVar
variable {K : Type} [Field K] [LinearOrder K] [IsStrictOrderedRing K] [FloorRing K]

/-- What a successfully constructed `FVar` looks like. -/
theorem init_ok {minv maxv : K} {size : Nat} {nullable : Bool} {v : FVar K} (h : init minv maxv size nullable = .ok v) :
    minv < maxv ∧ size ∈ [1, 2, 4, 8] ∧ v = ⟨minv, maxv, size, maxv - minv, 256 ^ size - b2i nullable, nullable⟩ := by
  unfold init at h
  simp only [bind_ok, pyAssert_ok, decide_eq_true_eq] at h
  obtain ⟨_, h1, _, h2, h3⟩ := h
  refine ⟨h1, h2, ?_⟩
  cases h3
  cases nullable <;> simp [sizeSpan, b2i]

theorem span_pos {size : Nat} (h : size ∈ [1, 2, 4, 8]) (nullable : Bool) :
    0 < (256 : Int) ^ size - b2i nullable := by
  have : (256 : Int) ^ 1 ≤ 256 ^ size := pow_le_pow_right₀ (by norm_num) (by
    simp only [List.mem_cons, List.not_mem_nil, or_false] at h; omega)
  have : b2i nullable ≤ 1 := by cases nullable <;> simp [b2i]
  omega

/-- The index of an in-range number. -/
theorem index_some {minv maxv : K} (hlt : minv < maxv) {size : Nat} {nullable : Bool} {span : Int} (hspan : 0 < span)
    {x : K} (h1 : minv ≤ x) (h2 : x ≤ maxv) :
    index ⟨minv, maxv, size, maxv - minv, span, nullable⟩ (some x) =
      .ok (pyRound ((x - minv) * (span : K) / (maxv - minv))) ∧
    0 ≤ pyRound ((x - minv) * (span : K) / (maxv - minv)) ∧
    pyRound ((x - minv) * (span : K) / (maxv - minv)) ≤ span := by
  have hd : 0 < maxv - minv := sub_pos.mpr hlt
  have hs : (0 : K) < span := by exact_mod_cast hspan
  have hle : (x - minv) * (span : K) / (maxv - minv) ≤ span := by
    rw [div_le_iff₀ hd, mul_comm]
    exact mul_le_mul_of_nonneg_left (by linarith) hs.le
  have hge : (0 : K) ≤ (x - minv) * (span : K) / (maxv - minv) := by
    have : 0 ≤ x - minv := sub_nonneg.mpr h1
    positivity
  have hr : pyRound ((x - minv) * (span : K) / (maxv - minv)) ≤ span := pyRound_le_of_le hle
  refine ⟨?_, ?_, hr⟩
  · simp [index, pyAssert, h1, h2, bind, Except.bind, pure, Except.pure, hr]
  · exact le_pyRound_of_le (by simpa using hge)

theorem value_some {minv maxv : K} {size : Nat} {nullable : Bool} {span : Int} {i : Int} (h0 : 0 ≤ i) (h1 : i ≤ span) :
    value ⟨minv, maxv, size, maxv - minv, span, nullable⟩ i =
      .ok (some (minv + (i : K) * (maxv - minv) / (span : K))) := by
  have : ¬ i = span + 1 := by omega
  simp [value, this, pyAssert, h0, h1, bind, Except.bind, pure, Except.pure]

/-- Encoding that succeeds: the number is in range and the bytes are those of the rounded index. -/
theorem encode_ok {minv maxv : K} (hlt : minv < maxv) {size : Nat} {nullable : Bool} {span : Int} (hspan : 0 < span)
    {x : K} {bs : List Byte} (h : encode ⟨minv, maxv, size, maxv - minv, span, nullable⟩ (some x) = .ok bs) :
    minv ≤ x ∧ x ≤ maxv ∧ ∃ i : Nat, (i : Int) = pyRound ((x - minv) * (span : K) / (maxv - minv)) ∧
      (i : Int) ≤ span ∧ i < 256 ^ size ∧ bs = beBytes size i := by
  unfold encode at h
  rw [bind_ok] at h
  obtain ⟨a, ha, hp⟩ := h
  have hr : minv ≤ x ∧ x ≤ maxv := by
    by_contra hc
    simp [index, pyAssert, hc, bind, Except.bind] at ha
  obtain ⟨k1, k2, k3⟩ := index_some (size := size) (nullable := nullable) hlt hspan hr.1 hr.2
  rw [k1] at ha
  cases ha
  rw [packU_ok] at hp
  obtain ⟨p1, p2, p3⟩ := hp
  refine ⟨hr.1, hr.2, (pyRound ((x - minv) * (span : K) / (maxv - minv))).toNat, by omega, by omega, ?_, p3⟩
  have hp : pyRound ((x - minv) * (span : K) / (maxv - minv)) < (256 ^ size : Nat) := p2
  have : ((pyRound ((x - minv) * (span : K) / (maxv - minv))).toNat : Int) < (256 ^ size : Nat) := by
    rw [Int.toNat_of_nonneg k2]; exact hp
  exact_mod_cast this

end FVar

namespace IVar

theorem init_ok {minv maxv : Int} {nullable : Bool} {v : IVar} (h : init minv maxv nullable = .ok v) :
    minv < maxv ∧ v.size ∈ [1, 2, 4, 8] ∧ v = ⟨minv, maxv, v.size, 256 ^ v.size - b2i nullable, nullable, none⟩ ∧
      maxv - minv < 256 ^ v.size - b2i nullable ∧
      ∀ s ∈ [1, 2, 4, 8], maxv - minv < (256 : Int) ^ s - b2i nullable → v.size ≤ s := by
  unfold init at h
  simp only [bind_ok, pyAssert_ok, decide_eq_true_eq] at h
  obtain ⟨_, h1, size, h2, h3⟩ := h
  have hv : v = ⟨minv, maxv, size, 256 ^ size - b2i nullable, nullable, none⟩ := by
    cases h3
    cases nullable <;> simp [sizeSpan, b2i]
  subst hv
  refine ⟨h1, ?_⟩
  clear h3
  have e1 : sizeSpan 1 = 256 := rfl
  have e2 : sizeSpan 2 = 65536 := rfl
  have e4 : sizeSpan 4 = 4294967296 := rfl
  have e8 : sizeSpan 8 = 18446744073709551616 := rfl
  rw [pickSize, e1, e2, e4, e8] at h2
  simp only [List.mem_cons, List.not_mem_nil, or_false, forall_eq_or_imp, forall_eq, true_and]
  by_cases c1 : maxv - minv < 256 - b2i nullable
  · rw [if_pos c1] at h2
    cases h2; refine ⟨by simp, ?_, ?_, ?_, ?_, ?_⟩ <;> omega
  · rw [if_neg c1] at h2
    by_cases c2 : maxv - minv < 65536 - b2i nullable
    · rw [if_pos c2] at h2
      cases h2; refine ⟨by simp, ?_, ?_, ?_, ?_, ?_⟩ <;> omega
    · rw [if_neg c2] at h2
      by_cases c4 : maxv - minv < 4294967296 - b2i nullable
      · rw [if_pos c4] at h2
        cases h2; refine ⟨by simp, ?_, ?_, ?_, ?_, ?_⟩ <;> omega
      · rw [if_neg c4] at h2
        by_cases c8 : maxv - minv < 18446744073709551616 - b2i nullable
        · rw [if_pos c8] at h2
          cases h2; refine ⟨by simp, ?_, ?_, ?_, ?_, ?_⟩ <;> omega
        · rw [if_neg c8] at h2
          cases h2

end IVar

theorem rstrip0_append_zeros (s : List Nat) (k : Nat) (h : s.getLast? ≠ some 0) :
    SVar.rstrip0 (s ++ List.replicate k 0) = s := by
  unfold SVar.rstrip0
  rw [List.reverse_append, List.reverse_replicate]
  have h1 : ∀ k : Nat, (List.replicate k 0 ++ s.reverse).dropWhile (· == 0) = s.reverse.dropWhile (· == 0) := by
    intro k
    induction k with
    | zero => rfl
    | succ k ih => rw [List.replicate_succ, List.cons_append, List.dropWhile_cons]; simpa using ih
  rw [h1]
  have h2 : s.reverse.dropWhile (· == 0) = s.reverse := by
    cases hs : s.reverse with
    | nil => rfl
    | cons a l =>
      have : s.getLast? = some a := by rw [← List.head?_reverse, hs]; rfl
      have ha : a ≠ 0 := by intro h0; rw [this, h0] at h; exact h rfl
      rw [List.dropWhile_cons]
      simp [ha]
  rw [h2, List.reverse_reverse]

namespace SVar

theorem encode_length {v : SVar} {s : Option (List Nat)} {bs : List Byte} (h : v.encode s = .ok bs) :
    bs.length = v.size := by
  cases s with
  | none =>
    simp only [encode, bind_ok, pyAssert_ok] at h
    obtain ⟨_, _, h⟩ := h
    cases h; simp
  | some s =>
    simp only [encode] at h
    split at h
    · cases h
    · simp only [bind_ok, pyAssert_ok, decide_eq_true_eq] at h
      obtain ⟨_, h1, h⟩ := h
      cases h; simp; omega

/-- The encoding of a string is its UTF-8 form padded with NULs. -/
theorem encode_some {v : SVar} {s : List Nat} {bs : List Byte} (h : v.encode (some s) = .ok bs) :
    ∃ data, utf8Enc s = some data ∧ data.length ≤ v.size ∧ bs = data ++ List.replicate (v.size - data.length) 0 := by
  simp only [encode] at h
  split at h
  · cases h
  · rename_i data hd
    simp only [bind_ok, pyAssert_ok, decide_eq_true_eq] at h
    obtain ⟨_, h1, h⟩ := h
    cases h
    exact ⟨data, hd, h1, rfl⟩

theorem encode_not_ff {v : SVar} {s : List Nat} {bs : List Byte} (h : v.encode (some s) = .ok bs) (hs : 0 < v.size) :
    bs ≠ List.replicate v.size 0xff := by
  obtain ⟨data, h1, h2, rfl⟩ := encode_some h
  intro he
  have hm : ∀ b ∈ data ++ List.replicate (v.size - data.length) 0, b = 0xff := by
    rw [he]; intro b hb; exact List.eq_of_mem_replicate hb
  have hne : data ++ List.replicate (v.size - data.length) 0 ≠ [] := by
    rw [he]; intro h0
    have := congrArg List.length h0
    simp at this
    omega
  obtain ⟨b, l, hb⟩ := List.exists_cons_of_ne_nil hne
  have hb1 : b ∈ data ++ List.replicate (v.size - data.length) 0 := by rw [hb]; simp
  have hb2 := hm b hb1
  rcases List.mem_append.mp hb1 with hb3 | hb3
  · have := utf8Enc_lt s data h1 b hb3
    omega
  · have := List.eq_of_mem_replicate hb3
    omega

theorem decode_encode_some {v : SVar} {s : List Nat} {bs : List Byte} (h : v.encode (some s) = .ok bs)
    (hs : 0 < v.size) (hn : s.getLast? ≠ some 0) : v.decode bs = .ok (some s) := by
  have hff := encode_not_ff h hs
  obtain ⟨data, h1, h2, rfl⟩ := encode_some h
  simp only [decode, if_neg hff]
  have hz : utf8Enc (List.replicate (v.size - data.length) 0) = some (List.replicate (v.size - data.length) 0) :=
    utf8Enc_ascii _ (by intro c hc; rw [List.eq_of_mem_replicate hc]; decide)
  have := utf8Dec_enc _ _ (utf8Enc_append _ _ _ _ h1 hz)
  rw [this]
  simp only [rstrip0_append_zeros s _ hn]

end SVar

section
variable {K : Type} [Field K] [LinearOrder K] [IsStrictOrderedRing K] [FloorRing K]

/-- A column whose constructor was called (directly on the `IVar`, `FVar` or `SVar` class). -/
inductive Column.Made : Column K → Prop
  | ivar {minv maxv nullable v} : IVar.init minv maxv nullable = .ok v → Column.Made (.ivar v)
  | fvar {minv maxv size nullable v} : FVar.init minv maxv size nullable = .ok v → Column.Made (.fvar v)
  | svar (v) : Column.Made (.svar v)

theorem packU_length {n : Nat} {v : Int} {bs : List Byte} (h : packU n v = .ok bs) : bs.length = n := by
  rw [packU_ok] at h
  rw [h.2.2, beBytes_length]

theorem Column.encode_length {f : Column K} (hf : f.Made) {x : GVal K} {bs : List Byte} (h : f.encode x = .ok bs) :
    bs.length = f.size := by
  cases hf with
  | @ivar minv maxv nullable v hv =>
    obtain ⟨_, _, hv, _⟩ := IVar.init_ok hv
    exfalso
    rw [hv] at h
    cases x <;> simp [Column.encode, IVar.encode, IVar.getFmt, bind, Except.bind] at h
  | @fvar minv maxv size nullable v hv =>
    cases x with
    | str s => cases h
    | none => simp only [Column.encode, FVar.encode, bind_ok] at h; obtain ⟨_, _, h⟩ := h; exact packU_length h
    | int i => simp only [Column.encode, FVar.encode, bind_ok] at h; obtain ⟨_, _, h⟩ := h; exact packU_length h
    | num y => simp only [Column.encode, FVar.encode, bind_ok] at h; obtain ⟨_, _, h⟩ := h; exact packU_length h
  | svar v =>
    cases x with
    | int i => cases h
    | num y => cases h
    | none => exact SVar.encode_length (v := v) (s := Option.none) h
    | str s => exact SVar.encode_length (v := v) (s := some s) h

theorem growJoin_length (fs : List (Column K)) (hf : ∀ f ∈ fs, f.Made) (vs : List (GVal K)) (bs : List Byte)
    (h : growJoin fs vs = .ok bs) : bs.length = growSize (fs.take vs.length) := by
  induction fs generalizing vs bs with
  | nil => simp [growJoin] at h; subst h; simp [growSize]
  | cons f fs ih =>
    cases vs with
    | nil => simp [growJoin] at h; subst h; simp [growSize]
    | cons v vs =>
      simp only [growJoin, bind_ok] at h
      obtain ⟨d, h1, ds, h2, h3⟩ := h
      cases h3
      have := ih (fun g hg => hf g (by simp [hg])) vs ds h2
      have := Column.encode_length (hf f (by simp)) h1
      simp [growSize] at *
      omega

theorem growLoop_join (fs : List (Column K)) (hf : ∀ f ∈ fs, f.Made) (vs : List (GVal K)) (bs : List Byte)
    (h : growJoin fs vs = .ok bs) (hlen : fs.length ≤ vs.length) (pre post : List Byte) :
    growLoop (pre ++ bs ++ post) pre.length fs =
      (fs.zip vs).mapM (fun fv => do let d ← fv.1.encode fv.2; fv.1.decode d) := by
  induction fs generalizing vs bs pre with
  | nil => rfl
  | cons f fs ih =>
    cases vs with
    | nil => simp at hlen
    | cons v vs =>
      simp only [growJoin, bind_ok] at h
      obtain ⟨d, h1, ds, h2, h3⟩ := h
      cases h3
      have hd := Column.encode_length (hf f (by simp)) h1
      have hi := ih (fun g hg => hf g (by simp [hg])) vs ds h2 (by simpa using hlen) (pre ++ d)
      have e1 : pre ++ (d ++ ds) ++ post = pre ++ d ++ ds ++ post := by simp
      have e2 : (pre ++ d).length = pre.length + f.size := by simp [hd]
      have e3 : ((pre ++ (d ++ ds) ++ post).drop pre.length).take f.size = d := by
        rw [← hd]; simp
      rw [growLoop, e3, e1, ← e2, hi]
      simp only [List.zip_cons_cons, List.mapM_cons, h1, bind, Except.bind]

end
end Coral
