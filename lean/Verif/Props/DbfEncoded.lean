import Verif.Spec.DbfEncoded
import Verif.Proofs.Dbf

/-!
# C203: attributes in encodings of one byte for each character
-/
namespace Coral
namespace Dbf

open Shapefile (ok_bind)

theorem Codec.b_ok {K : Codec} {s : Str} (h : K.Has s) : ∃ bs, K.b s = .ok bs := by
  induction s with
  | nil => exact ⟨[], rfl⟩
  | cons c s ih =>
    obtain ⟨x, hx⟩ := Option.isSome_iff_exists.mp (h c (by simp))
    obtain ⟨bs, hbs⟩ := ih (fun d hd => h d (by simp [hd]))
    exact ⟨x :: bs, by simp [Codec.b, hx, hbs]⟩

theorem Codec.b_inv {K : Codec} {s : Str} {bs : List Byte} (h : K.b s = .ok bs) : List.Forall₂ (fun c x => K.enc1 c = some x) s bs := by
  induction s generalizing bs with
  | nil => cases h; exact .nil
  | cons c s ih =>
    simp only [Codec.b] at h
    split at h
    · rename_i x hx
      simp only [Py.bind_ok] at h
      obtain ⟨bs', h1, h2⟩ := h
      cases h2
      exact .cons hx (ih h1)
    · cases h

theorem Codec.u_b {K : Codec} {s : Str} {bs : List Byte} (h : List.Forall₂ (fun c x => K.enc1 c = some x) s bs) : K.u bs = .ok s := by
  induction h with
  | nil => rfl
  | cons h _ ih => simp [Codec.u, K.back h, ih]

theorem Codec.b_ascii (K : Codec) {s : Str} (h : Ascii s) : K.b s = .ok (s.map Char.toNat) := by
  induction s with
  | nil => rfl
  | cons c s ih => simp [Codec.b, K.ascii (h c (by simp)), ih (fun d hd => h d (by simp [hd]))]

/-- Bytes of white space stand for characters of white space. -/
theorem Codec.space {K : Codec} {c : Char} {x : Byte} (h : K.enc1 c = some x) (hx : byteSpace x = true) : isSpace c = true := by
  have hlt : x < 128 := by
    simp only [byteSpace, Bool.or_eq_true, Bool.and_eq_true, decide_eq_true_eq] at hx
    omega
  have h1 : (Char.ofNat x).toNat = x := by
    have hv : x.isValidChar := Or.inl (by omega)
    simp [Char.ofNat, hv, Char.toNat, Char.ofNatAux]
  have h2 := K.back (K.ascii (c := Char.ofNat x) (by rw [h1]; exact hlt))
  rw [h1, K.back h] at h2
  cases h2
  apply byteSpace_isSpace
  rw [h1]; exact hx

section
variable {F : Type} (pyFloat : List Byte → Py F)

theorem textual_layout {f : Field} (h : Textual f) (s : Str) : layout f s = .ok (ljust f.size.toNat (s.take f.size.toNat)) := by
  obtain ⟨c, hc, hc1, hc2, hc3, hc4⟩ := h
  have hN : f.type.map upperChar ≠ ['N'] := by
    intro hh
    rw [hc] at hh
    rcases upper_eq (by decide) (List.cons.inj hh).1 with h | h
    · exact hc1 h
    · exact hc2 (char_eq h)
  have hL : f.type.map upperChar ≠ ['L'] := by
    intro hh
    rw [hc] at hh
    rcases upper_eq (by decide) (List.cons.inj hh).1 with h | h
    · exact hc3 h
    · exact hc4 (char_eq h)
  simp only [layout, if_neg hN, if_neg hL]

theorem pyAssert_ok {c : Bool} {u : Unit} (h : pyAssert c = .ok u) : c = true := by
  simp only [pyAssert] at h
  split at h
  · assumption
  · cases h

/-- Whatever is written for a value has the size of the field in bytes, so that all records have the size that the header says. -/
theorem C203_length {K : Codec} {f : Field} {v : Attr} {bs : List Byte} (h : writeValueIn K f v = .ok bs) : (bs.length : Int) = f.size := by
  simp only [writeValueIn, Py.bind_ok] at h
  obtain ⟨t, -, u, ha, hb⟩ := h
  rw [← (Codec.b_inv hb).length_eq]
  simpa using pyAssert_ok ha

theorem valueIn_ok {K : Codec} {f g : Field} (hg : Found f g) {v : Attr} {out : Value F} (h : FitsIn K f v out) :
    ∃ bs, writeValueIn K f v = .ok bs ∧ bs.length = f.size.toNat ∧ parseValueIn pyFloat K g bs = .ok out := by
  cases h with
  | text hty hne hK hsp hlen =>
    rename_i s
    have htake : s.take f.size.toNat = s := List.take_of_length_le (by omega)
    have hlay := textual_layout hty s
    rw [htake] at hlay
    have hsz : ((ljust f.size.toNat s).length : Int) = f.size := by
      simp only [ljust, List.length_append, List.length_replicate]; omega
    have hK' : K.Has (ljust f.size.toNat s) := by
      intro c hc
      rcases List.mem_append.mp hc with hc | hc
      · exact hK c hc
      · rw [List.eq_of_mem_replicate hc, K.ascii (by decide)]; rfl
    obtain ⟨bs, hbs⟩ := Codec.b_ok hK'
    have hw : writeValueIn K f (.text s) = .ok bs := by
      simp only [writeValueIn, Attr.str, hlay, ok_bind, hsz, decide_true, pyAssert, if_true, hbs]
    refine ⟨bs, hw, by have := C203_length hw; omega, ?_⟩
    have hall := Codec.b_inv hbs
    obtain ⟨a, l, rfl⟩ : ∃ a l, s = a :: l := by
      cases s with
      | nil => exact absurd rfl hne
      | cons a l => exact ⟨a, l, rfl⟩
    have hb : bstrip bs ≠ [] := by
      intro hh
      simp only [ljust, List.cons_append] at hall
      cases hall with
      | cons h1 _ =>
        have h2 := Codec.space h1 (bstrip_nil hh _ (by simp))
        rw [hsp.1 a rfl] at h2
        cases h2
    have hNN : g.type ≠ ['N'] := by
      obtain ⟨c, hc, hc1, -⟩ := hty
      rw [hg.type, hc]
      simpa using hc1
    simp only [parseValueIn, if_neg hb, if_neg hNN, Codec.u_b hall, ok_bind, pure, Except.pure]
    congr 2
    rw [strip, ljust, lstrip_id (by intro x hx; exact hsp.1 x (by simpa using hx)), rstrip_blanks, rstrip_id hsp.2]
  | int hty hlen =>
    rename_i n
    have hN : f.type.map upperChar = ['N'] := by rw [hty.1]; decide
    have hAsc : Ascii (rjust f.size.toNat (decInt n)) := ascii_append (ascii_blanks _) (ascii_decInt n)
    have hsz : ((rjust f.size.toNat (decInt n)).length : Int) = f.size := by
      simp only [rjust, List.length_append, List.length_replicate]; omega
    have hw : writeValueIn K f (.int n) = .ok ((rjust f.size.toNat (decInt n)).map Char.toNat) := by
      simp only [writeValueIn, layout, if_pos hN, Attr.str, ok_bind, hsz, decide_true, pyAssert, if_true, K.b_ascii hAsc]
    have hw' : writeValue f (.int n) = .ok ((rjust f.size.toNat (decInt n)).map Char.toNat) := by
      simp only [writeValue, layout, if_pos hN, Attr.str, ok_bind, hsz, decide_true, pyAssert, if_true, enc_ascii hAsc]
      rfl
    obtain ⟨h1, h2⟩ := value_ok pyFloat (.int hty hlen) hw'
    refine ⟨_, hw, h1, ?_⟩
    have hty' : (seen f).type = ['N'] := hty.1
    have hgt : g.type = ['N'] := by rw [hg.type, hty.1]
    have hd : (seen f).deci = g.deci := by rw [hg.deci]; rfl
    rw [← h2]
    simp only [parseValueIn, parseValue, hty', hgt, hd, if_true]

theorem rowIn_ok {K : Codec} {fields gs : List Field} (hg : List.Forall₂ Found fields gs) {record : List Attr} {outs : List (Value F)}
    (h : RowIn K fields record outs) :
    ∃ vs, (fields.zip record).mapM (fun p => writeValueIn K p.1 p.2) = .ok vs ∧ vs.flatten.length = (gs.map (fun f => f.size.toNat)).sum ∧
      parseValuesIn pyFloat K gs (chunks (gs.map (fun f => f.size.toNat)) vs.flatten) = .ok outs := by
  induction h generalizing gs with
  | nil => cases hg; exact ⟨[], rfl, rfl, rfl⟩
  | cons hf _ ih =>
    cases hg with
    | cons hg1 hg2 =>
      rename_i g gs
      obtain ⟨b, h1, h2, h3⟩ := valueIn_ok pyFloat hg1 hf
      obtain ⟨vs, h4, h5, h6⟩ := ih hg2
      rw [← hg1.size] at h2
      refine ⟨b :: vs, ?_, by simp [h2, h5], ?_⟩
      · rw [Py.mapM_ok] at h4 ⊢
        exact .cons h1 h4
      · simp only [List.map_cons, List.flatten_cons, chunks, parseValuesIn]
        rw [if_neg hg1.name, List.take_left' h2, List.drop_left' h2, h3, ok_bind, h6]
        rfl

theorem recordIn_ok {K : Codec} {fields gs : List Field} (hne : fields ≠ []) (hk : ∀ f ∈ fields, f.deletes = false)
    (hg : List.Forall₂ Found fields gs) {record : List Attr} {outs : List (Value F)} (h : RowIn K fields record outs) :
    ∃ bs, writeRecordIn K fields record = .ok bs ∧ bs.length = ((deletionField :: gs).map (fun f => f.size.toNat)).sum ∧
      parseIn pyFloat K (deletionField :: gs) bs = .ok (some outs) := by
  obtain ⟨vs, h1, h2, h3⟩ := rowIn_ok pyFloat hg h
  have hfl : writeFlag fields = .ok [32] := by
    cases fields with
    | nil => exact absurd rfl hne
    | cons f fs => simp [writeFlag, hk f (by simp)]
  have e : (deletionField :: gs).map (fun f => f.size.toNat) = 1 :: gs.map (fun f => f.size.toNat) := rfl
  refine ⟨[32] ++ vs.flatten, by simp only [writeRecordIn, hfl, h1, ok_bind]; rfl, by simp [e, h2]; omega, ?_⟩
  simp only [parseIn, e, chunks, List.cons_append, List.nil_append, List.take_succ_cons, List.take_zero, List.drop_succ_cons, List.drop_zero, List.head?_cons]
  rw [if_neg (by simp)]
  simp only [parseValuesIn, if_true, h3, ok_bind]
  rfl

/-- All records are written, and `records()` with the same encoding gives them back, whatever letters the texts have. -/
theorem C203_records {K : Codec} {fields gs : List Field} (hne : fields ≠ []) (hk : ∀ f ∈ fields, f.deletes = false)
    (hg : List.Forall₂ Found fields gs) {records : List (List Attr)} {outs : List (List (Value F))}
    (h : List.Forall₂ (RowIn K fields) records outs) :
    ∃ data, writeRecordsIn K fields records = .ok data ∧ recordsIn pyFloat K (deletionField :: gs) records.length data = .ok outs := by
  suffices H : ∃ rs, records.mapM (writeRecordIn K fields) = .ok rs ∧
      recordsIn pyFloat K (deletionField :: gs) records.length rs.flatten = .ok outs by
    obtain ⟨rs, h1, h2⟩ := H
    exact ⟨rs.flatten, by simp only [writeRecordsIn, h1, ok_bind]; rfl, h2⟩
  induction h with
  | nil => exact ⟨[], rfl, rfl⟩
  | cons hr _ ih =>
    rename_i r out rs' outs' _
    obtain ⟨rs, h1, h2⟩ := ih
    obtain ⟨bs, h3, h4, h5⟩ := recordIn_ok pyFloat hne hk hg hr
    refine ⟨bs :: rs, ?_, ?_⟩
    · rw [Py.mapM_ok] at h1 ⊢
      exact .cons h3 h1
    · simp only [List.length_cons, recordsIn, List.flatten_cons]
      rw [List.take_left' h4, List.drop_left' h4, if_pos h4, h5, ok_bind, h2, ok_bind]
      cases hr with
      | nil => exact absurd rfl hne
      | cons => rfl

end

/-- Text that is too long is cut after the characters that the field has room for. -/
theorem C203_cut {K : Codec} {f : Field} (hf : Textual f) (hs : 0 ≤ f.size) (s : Str) :
    writeValueIn K f (.text s) = writeValueIn K f (.text (s.take f.size.toNat)) := by
  simp only [writeValueIn, Attr.str, textual_layout hf, List.take_take, Nat.min_self]

theorem Codec.b_missing {K : Codec} {s : Str} {c : Char} (hc : c ∈ s) (h : K.enc1 c = none) : K.b s = .error .unicodeError := by
  induction s with
  | nil => simp at hc
  | cons d s ih =>
    simp only [Codec.b]
    cases hd : K.enc1 d with
    | none => rfl
    | some x =>
      have : c ∈ s := by
        rcases List.mem_cons.mp hc with rfl | hc
        · rw [h] at hd; cases hd
        · exact hc
      simp only [ih this]
      rfl

/-- A character that the encoding does not have raises, unless it is in the part that is cut off. -/
theorem C203_missing {K : Codec} {f : Field} (hf : Textual f) (hs : 0 ≤ f.size) {s : Str} {c : Char} (hc : c ∈ s.take f.size.toNat)
    (h : K.enc1 c = none) : writeValueIn K f (.text s) = .error .unicodeError := by
  have hsz : ((ljust f.size.toNat (s.take f.size.toNat)).length : Int) = f.size := by
    simp only [ljust, List.length_append, List.length_replicate, List.length_take]; omega
  simp only [writeValueIn, Attr.str, textual_layout hf, ok_bind, hsz, decide_true, pyAssert, if_true]
  exact Codec.b_missing (by simp [ljust, hc]) h

/-! ### Names of fields -/

/-- A name with underscores for blanks. -/
def underscored (s : Str) : Str := s.map (fun c => if c = ' ' then '_' else c)

theorem Codec.only {K : Codec} {c d : Char} (hd : d.toNat < 128) (h : K.enc1 c = some d.toNat) : c = d := by
  have h1 := K.back (K.ascii hd)
  rw [K.back h] at h1
  exact Option.some.inj h1

/-- The name of a field comes back, whatever letters it has: its first ten characters, with underscores for blanks and without white space before them. -/
theorem C203_names {K : Codec} {name : Str} (hK : K.Has name) (h0 : Char.ofNat 0 ∉ name) :
    ∃ bs, packNameIn K name = .ok bs ∧ bs.length = 11 ∧ readNameIn K bs = .ok (lstrip ((underscored name).take 10)) := by
  obtain ⟨bs, hbs⟩ := Codec.b_ok hK
  have hall := Codec.b_inv hbs
  have h1 : List.Forall₂ (fun c x => K.enc1 c = some x) (underscored name) (replaceByte 32 95 bs) := by
    unfold underscored replaceByte
    rw [List.forall₂_map_left_iff, List.forall₂_map_right_iff]
    refine hall.imp fun c x h => ?_
    by_cases hc : c = ' '
    · subst hc
      rw [K.ascii (by decide)] at h
      cases h
      exact K.ascii (c := '_') (by decide)
    · have hx : x ≠ 32 := by
        rintro rfl
        exact hc (Codec.only (d := ' ') (by decide) h)
      simpa [hc, hx] using h
  have h2 : ∀ x ∈ replaceByte 32 95 bs, x ≠ 0 ∧ x ≠ 32 := by
    intro x hx
    simp only [replaceByte, List.mem_map] at hx
    obtain ⟨y, hy, rfl⟩ := hx
    obtain ⟨i, hi, rfl⟩ := List.getElem_of_mem hy
    have hi' : i < name.length := by rw [hall.length_eq]; exact hi
    have he := hall.get hi' hi
    simp only [List.get_eq_getElem] at he
    split
    · decide
    · rename_i hne
      refine ⟨?_, hne⟩
      intro hz
      rw [hz] at he
      have := Codec.only (d := Char.ofNat 0) (by decide) he
      exact h0 (this ▸ List.getElem_mem hi')
  have hp : packNameIn K name = .ok ((replaceByte 32 0 (replaceByte 32 95 bs ++ List.replicate (11 - (replaceByte 32 95 bs).length) 32)).take 11) := by
    simp only [packNameIn, hbs, ok_bind]; rfl
  generalize replaceByte 32 95 bs = cs at h1 h2 hp
  have h3 : replaceByte 32 0 (cs ++ List.replicate (11 - cs.length) 32) = cs ++ List.replicate (11 - cs.length) 0 := by
    simp only [replaceByte, List.map_append, List.map_replicate, if_true]
    congr 1
    conv_rhs => rw [← List.map_id cs]
    refine List.map_congr_left fun x hx => ?_
    rw [if_neg (h2 x hx).2]; rfl
  have hcut : cutName ((cs ++ List.replicate (11 - cs.length) 0).take 11) = cs.take 10 := by
    by_cases hl : 11 ≤ cs.length
    · rw [show 11 - cs.length = 0 by omega, List.replicate_zero, List.append_nil, cutName, if_neg, List.dropLast_eq_take, List.take_take,
        List.length_take]
      · congr 1; omega
      · intro hm; exact (h2 0 (List.mem_of_mem_take hm)).1 rfl
    · rw [List.take_of_length_le (by simp; omega), cutName, if_pos (by simp; omega), List.take_of_length_le (by omega),
        show 11 - cs.length = (10 - cs.length) + 1 by omega, List.replicate_succ, List.takeWhile_append_of_pos]
      · simp
      · intro x hx; simpa using (h2 x hx).1
  rw [h3] at hp
  refine ⟨_, hp, by simp; omega, ?_⟩
  rw [readNameIn, hcut, Codec.u_b (List.forall₂_take 10 h1), ok_bind]
  rfl

/-! ## The hypotheses can be met -/

/-- `latin-1` -/
def latin1 : Codec where
  enc1 c := if c.toNat < 256 then some c.toNat else none
  dec1 b := if b < 256 then some (Char.ofNat b) else none
  back := by
    intro c b h
    split at h
    · rename_i hc
      cases h
      simp [hc]
    · cases h
  ascii := by intro c h; rw [if_pos (by omega)]

/-- A text field of four characters. -/
def four : Field := { name := ['n'], type := ['C'], size := 4, deci := 0 }

/-- `née` in `latin-1`. In utf-8 the record would get one byte more (C88_violated_unicode). -/
example : RowIn (F := Unit) latin1 [four] [.text ['n', 'é', 'e']] [.text ['n', 'é', 'e']] :=
  .cons (.text ⟨'C', rfl, by decide, by decide, by decide, by decide⟩ (by decide) (by unfold Codec.Has; decide) (by decide) (by decide)) .nil
example : writeRecordsIn latin1 [four] [[.text ['n', 'é', 'e']]] = .ok [32, 110, 233, 101, 32] := by decide
/-- A name with a blank and a letter that is not in ASCII. -/
example : (do readNameIn latin1 (← packNameIn latin1 ['n', 'é', ' ', 'e'])) = .ok ['n', 'é', '_', 'e'] := by decide
example : Found four four := ⟨rfl, rfl, rfl, by decide⟩
/-- The sign for the euro is not in `latin-1`. -/
example : latin1.enc1 '€' = none ∧ '€' ∈ ['€', '1'].take four.size.toNat := by decide

end Dbf
end Coral
