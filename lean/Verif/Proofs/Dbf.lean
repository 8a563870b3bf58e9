import Verif.Spec.Dbf
import Verif.PyList
import Verif.Proofs.Shapefile

namespace Coral
namespace Dbf

set_option linter.unusedSectionVars false

open Shapefile (ok_bind restrictIndex)

/-! ### Bytes and characters -/

theorem ofNat_toNat (c : Char) : Char.ofNat c.toNat = c := by simp

theorem enc_ascii {s : Str} (h : Ascii s) : enc s = s.map Char.toNat := by
  have := utf8Enc_ascii (s.map Char.toNat) (by
    intro n hn
    obtain ⟨c, hc, rfl⟩ := List.mem_map.mp hn
    exact h c hc)
  unfold utf8Enc at this
  split at this
  · exact Option.some.inj this
  · cases this

theorem dec_ascii {s : Str} (h : Ascii s) : dec (s.map Char.toNat) = .ok s := by
  have := utf8Dec_enc _ _ (utf8Enc_ascii (s.map Char.toNat) (by
    intro n hn
    obtain ⟨c, hc, rfl⟩ := List.mem_map.mp hn
    exact h c hc))
  simp only [dec, this, List.map_map]
  congr 1
  rw [show (Char.ofNat ∘ Char.toNat) = id from funext ofNat_toNat, List.map_id]

theorem dec_small {bs : List Byte} (h : ∀ b ∈ bs, b < 128) : ∃ s, dec bs = .ok s ∧ s = bs.map Char.ofNat := by
  have := utf8Dec_enc _ _ (utf8Enc_ascii bs h)
  exact ⟨_, by simp only [dec, this], rfl⟩

theorem ascii_append {s t : Str} (hs : Ascii s) (ht : Ascii t) : Ascii (s ++ t) := by
  intro c hc
  rcases List.mem_append.mp hc with hc | hc
  · exact hs c hc
  · exact ht c hc

theorem ascii_blanks (n : Nat) : Ascii (List.replicate n ' ') := by
  intro c hc
  rw [List.eq_of_mem_replicate hc]
  decide

theorem ascii_decInt (n : Int) : Ascii (decInt n) := by
  intro c hc
  rcases decInt_chars n c hc with rfl | ⟨d, hd, rfl⟩
  · decide
  · rw [digitChar_toNat hd]; omega

theorem packL_ok {n : Nat} {v : Int} {bs : List Byte} (h : packL n v = .ok bs) :
    bs.length = n ∧ leVal bs = v.toNat ∧ 0 ≤ v ∧ v < (256 ^ n : Nat) := by
  simp only [packL, Py.bind_ok] at h
  obtain ⟨b, hb, h⟩ := h
  cases h
  obtain ⟨h1, h2⟩ := unpackU_packU hb
  rw [unpackU, if_pos h2] at h1
  refine ⟨by simpa using h2, ?_, ?_⟩
  · simp only [leVal, List.reverse_reverse]
    exact Except.ok.inj h1
  · unfold packU at hb
    split at hb
    · assumption
    · cases hb

theorem packL_of {n : Nat} {v : Int} (h1 : 0 ≤ v) (h2 : v < (256 ^ n : Nat)) : ∃ bs, packL n v = .ok bs := by
  refine ⟨(beBytes n v.toNat).reverse, ?_⟩
  simp only [packL, packU, if_pos (And.intro h1 h2), ok_bind]
  rfl

theorem packL_one {v : Int} {bs : List Byte} (h : packL 1 v = .ok bs) : bs = [v.toNat] ∧ 0 ≤ v ∧ v < 256 := by
  obtain ⟨h1, h2, h3, h4⟩ := packL_ok h
  match bs, h1 with
  | [b], _ =>
    have : leVal [b] = b := by simp [leVal, beVal]
    rw [this] at h2
    exact ⟨by rw [h2], h3, by simpa using h4⟩

/-! ### Writing -/

theorem packType_ok {t : Str} {bs : List Byte} (h : packType t = .ok bs) : ∃ c, t = [c] ∧ c.toNat < 128 ∧ bs = [c.toNat] := by
  have hlen : ∀ c : Char, 1 ≤ (utf8Enc1 c.toNat).length := fun c => by
    have := utf8Enc1_ne_nil c.toNat
    cases hh : utf8Enc1 c.toNat with
    | nil => exact absurd hh this
    | cons => simp
  simp only [packType] at h
  split at h
  · rename_i x hx
    cases h
    match t with
    | [] => simp [enc] at hx
    | [c] =>
      simp only [enc, List.map_cons, List.map_nil, List.flatMap_cons, List.flatMap_nil, List.append_nil] at hx
      have : c.toNat < 128 := by
        unfold utf8Enc1 at hx
        split at hx
        · assumption
        · split at hx
          · simp at hx
          · split at hx <;> simp at hx
      refine ⟨c, rfl, this, ?_⟩
      rw [utf8Enc1, if_pos (by omega)] at hx
      exact hx.symm
    | c :: d :: t =>
      simp only [enc, List.map_cons, List.flatMap_cons] at hx
      have e := congrArg List.length hx
      have h1 := hlen c
      have h2 := hlen d
      simp only [List.length_append, List.length_cons, List.length_nil] at e
      omega
  · cases h

theorem packName_length (name : Str) : (packName name).length = 11 := by
  simp only [packName, List.length_take, replaceByte, List.length_map, List.length_append, List.length_replicate]
  omega

/-- The descriptor of a field, byte by byte. -/
theorem descriptor_ok {f : Field} {bs : List Byte} (h : descriptor f = .ok bs) :
    ∃ c, f.type = [c] ∧ c.toNat < 128 ∧ 0 ≤ f.size ∧ f.size < 256 ∧ 0 ≤ f.deci ∧ f.deci < 256 ∧ bs.length = 32 ∧
      bs.take 11 = packName f.name ∧ (bs.drop 11).take 1 = [c.toNat] ∧ (bs.drop 16).headD 0 = f.size.toNat ∧ (bs.drop 17).headD 0 = f.deci.toNat := by
  simp only [descriptor, Py.bind_ok] at h
  obtain ⟨t, ht, size, hsize, deci, hdeci, h⟩ := h
  cases h
  obtain ⟨c, hc, hc', rfl⟩ := packType_ok ht
  obtain ⟨rfl, s1, s2⟩ := packL_one hsize
  obtain ⟨rfl, d1, d2⟩ := packL_one hdeci
  have hl := packName_length f.name
  have d : ∀ k rest, (packName f.name ++ rest).drop (11 + k) = rest.drop k := by
    intro k rest
    rw [← List.drop_drop, ← hl, List.drop_left]
  refine ⟨c, hc, hc', s1, s2, d1, d2, ?_, ?_, ?_, ?_, ?_⟩
  · simp [hl]
  · simp only [List.append_assoc]
    rw [List.take_left' hl]
  · simp only [List.append_assoc]
    rw [show 11 = 11 + 0 from rfl, d]
    rfl
  · simp only [List.append_assoc]
    rw [show 16 = 11 + 5 from rfl, d]
    rfl
  · simp only [List.append_assoc]
    rw [show 17 = 11 + 6 from rfl, d]
    rfl

theorem descriptor_of {f : Field} (h : FieldOk f) : ∃ bs, descriptor f = .ok bs := by
  obtain ⟨-, -, ⟨h1, h2⟩, h3, h4⟩ := h
  obtain ⟨a, ha⟩ := packL_of (n := 1) h3.1 (by have := h3.2; simp; omega)
  obtain ⟨b, hb⟩ := packL_of (n := 1) h4.1 (by have := h4.2; simp; omega)
  have ht : ∃ t, packType f.type = .ok t := by
    simp only [packType, enc_ascii h1]
    obtain ⟨c, hc⟩ := List.length_eq_one_iff.mp h2
    rw [hc]
    exact ⟨_, rfl⟩
  obtain ⟨t, ht⟩ := ht
  simp only [descriptor, ht, ha, hb, ok_bind]
  exact ⟨_, rfl⟩

/-- Fields without deletion flags stay. -/
theorem dropDeletion_id {fields : List Field} (h : ∀ f ∈ fields, f.deletes = false) (fuel i : Nat) : dropDeletion fuel i fields = fields := by
  induction fuel generalizing i with
  | zero => rfl
  | succ fuel ih =>
    simp only [dropDeletion]
    split
    · rfl
    · rename_i f hf
      have := h f (List.mem_of_getElem? hf)
      simp [this, ih]

/-- The header, in pieces. -/
theorem header_ok {y m d : Int} {fields : List Field} {n : Nat} {h : List Byte} (hh : header y m d fields n = .ok h) :
    ∃ a ds, fields.mapM descriptor = .ok ds ∧ h = a ++ (ds.flatten ++ [13]) ∧ a.length = 32 ∧ leVal ((a.drop 4).take 4) = n ∧
      leVal ((a.drop 8).take 2) = 32 * fields.length + 33 ∧ ds.flatten.length = 32 * fields.length := by
  simp only [header, Py.bind_ok] at hh
  obtain ⟨bv, hv, by', hy, bm, hm, bd, hd, bn, hn, bh, hbh, br, hr, ds, hds, hh⟩ := hh
  cases hh
  obtain ⟨rfl, -, -⟩ := packL_one hv
  obtain ⟨rfl, -, -⟩ := packL_one hy
  obtain ⟨rfl, -, -⟩ := packL_one hm
  obtain ⟨rfl, -, -⟩ := packL_one hd
  obtain ⟨n1, n2, -, -⟩ := packL_ok hn
  obtain ⟨h1, h2, -, -⟩ := packL_ok hbh
  obtain ⟨r1, -, -, -⟩ := packL_ok hr
  refine ⟨[(3 : Int).toNat] ++ [y.toNat] ++ [m.toNat] ++ [d.toNat] ++ bn ++ bh ++ br ++ List.replicate 20 0, ds, hds, by simp, ?_, ?_, ?_, ?_⟩
  · simp [n1, h1, r1]
  · have : ([(3 : Int).toNat] ++ [y.toNat] ++ [m.toNat] ++ [d.toNat] ++ bn ++ bh ++ br ++ List.replicate 20 0).drop 4 =
        bn ++ (bh ++ br ++ List.replicate 20 0) := by simp
    rw [this, List.take_left' n1, n2]
    simp
  · have : ([(3 : Int).toNat] ++ [y.toNat] ++ [m.toNat] ++ [d.toNat] ++ bn ++ bh ++ br ++ List.replicate 20 0).drop 8 =
        bh ++ (br ++ List.replicate 20 0) := by
      rw [show 8 = 4 + 4 from rfl, ← List.drop_drop]
      have : ([(3 : Int).toNat] ++ [y.toNat] ++ [m.toNat] ++ [d.toNat] ++ bn ++ bh ++ br ++ List.replicate 20 0).drop 4 =
        bn ++ (bh ++ (br ++ List.replicate 20 0)) := by simp
      rw [this, List.drop_left' n1]
    rw [this, List.take_left' h1, h2]
    omega
  · rw [Py.mapM_ok] at hds
    clear * - hds
    induction hds with
    | nil => rfl
    | cons hx _ ih =>
      obtain ⟨c, -, -, -, -, -, -, hl, -⟩ := descriptor_ok hx
      simp only [List.flatten_cons, List.length_append, List.length_cons, hl, ih]
      omega

/-! ### Reading the header -/

theorem read_at {r : Reader} {pre x post : List Byte} (hd : r.data = pre ++ (x ++ post)) (hp : r.pos = pre.length) {n : Nat} (hn : x.length = n) :
    r.read n = (x, { r with pos := (pre ++ x).length }) := by
  subst hn
  simp only [Reader.read, hd, hp, List.drop_left, List.take_left, List.length_append]

/-- A field as the reader sees it. -/
def seen (f : Field) : Field :=
  { name := lstrip ((cutName (packName f.name)).map Char.ofNat), type := f.type, size := f.size, deci := f.deci }

theorem cutName_small {name : Str} (h : Ascii name) : ∀ b ∈ cutName (packName name), b < 128 := by
  have h1 : ∀ b ∈ packName name, b < 128 := by
    intro b hb
    have hb := List.mem_of_mem_take hb
    simp only [replaceByte, List.mem_map] at hb
    obtain ⟨x, hx, rfl⟩ := hb
    have : x < 128 := by
      rcases List.mem_append.mp hx with hx | hx
      · obtain ⟨y, hy, rfl⟩ := List.mem_map.mp hx
        rw [enc_ascii h] at hy
        obtain ⟨c, hc, rfl⟩ := List.mem_map.mp hy
        have := h c hc
        split <;> omega
      · rw [List.eq_of_mem_replicate hx]; omega
    split <;> omega
  intro b hb
  simp only [cutName] at hb
  split at hb
  · exact h1 b ((List.takeWhile_sublist _).subset hb)
  · exact h1 b (List.dropLast_subset _ hb)

theorem readField_ok {f : Field} {bs : List Byte} (h : descriptor f = .ok bs) (hn : Ascii f.name) {r : Reader} {pre post : List Byte}
    (hd : r.data = pre ++ (bs ++ post)) (hp : r.pos = pre.length) :
    r.readField = .ok (seen f, { r with pos := (pre ++ bs).length }) := by
  obtain ⟨c, hc, hc', s1, s2, d1, d2, hl, e1, e2, e3, e4⟩ := descriptor_ok h
  simp only [Reader.readField, read_at hd hp hl]
  rw [if_pos hl, e1, e2, e3, e4]
  obtain ⟨s, hs, rfl⟩ := dec_small (cutName_small hn)
  have ht : dec [c.toNat] = .ok [c] := by
    have := dec_ascii (s := [c]) (by intro x hx; simp at hx; subst hx; exact hc')
    simpa using this
  simp only [hs, ht, ok_bind, pure, Except.pure, seen, hc]
  congr 3
  · omega
  · omega

theorem readFields_ok {fields : List Field} {ds : List (List Byte)} (h : List.Forall₂ (fun f bs => descriptor f = .ok bs) fields ds)
    (hn : ∀ f ∈ fields, Ascii f.name) {r : Reader} {pre post : List Byte} (hd : r.data = pre ++ (ds.flatten ++ post)) (hp : r.pos = pre.length) :
    Reader.readFields fields.length r = .ok (fields.map seen, { r with pos := (pre ++ ds.flatten).length }) := by
  induction h generalizing r pre with
  | nil =>
    simp only [List.length_nil, Reader.readFields, List.map_nil, List.flatten_nil, List.append_nil, ← hp]
  | cons hx _ ih =>
    rename_i f bs fs ds _
    have hd' : r.data = pre ++ (bs ++ (ds.flatten ++ post)) := by simpa using hd
    simp only [List.length_cons, Reader.readFields, readField_ok hx (hn f (by simp)) hd' hp, ok_bind]
    have := ih (fun g hg => hn g (by simp [hg])) (r := { r with pos := (pre ++ bs).length }) (pre := pre ++ bs) (by simpa using hd') rfl
    simp only [this, ok_bind, List.map_cons, List.flatten_cons, List.append_assoc]
    rfl

/-- Opening a file that was saved. -/
theorem new_ok {y m d : Int} {fields : List Field} {n : Nat} {h : List Byte} (hh : header y m d fields n = .ok h) (hn : ∀ f ∈ fields, Ascii f.name)
    (rest : List Byte) :
    h.length = 32 * fields.length + 33 ∧ Reader.new (h ++ rest) = .ok
      { data := h ++ rest, pos := h.length, numRecords := n, headerLength := h.length, fields := deletionField :: fields.map seen } := by
  obtain ⟨a, ds, hds, rfl, ha, hnum, hlen, hdl⟩ := header_ok hh
  rw [Py.mapM_ok] at hds
  have hl : (a ++ (ds.flatten ++ [13])).length = 32 * fields.length + 33 := by simp [ha, hdl]; omega
  refine ⟨hl, ?_⟩
  have e1 : ({ data := a ++ (ds.flatten ++ [13]) ++ rest } : Reader).length = .ok { data := a ++ (ds.flatten ++ [13]) ++ rest, pos := a.length, numRecords := n, headerLength := 32 * fields.length + 33 } := by
    simp only [Reader.length]
    rw [if_pos trivial, read_at (pre := []) (x := a) (post := ds.flatten ++ [13] ++ rest) (by simp) rfl ha]
    dsimp only
    rw [if_pos ha, hnum, hlen]
    rfl
  have e2 := readFields_ok hds hn (r := { data := a ++ (ds.flatten ++ [13]) ++ rest, pos := a.length, numRecords := n, headerLength := 32 * fields.length + 33 })
    (pre := a) (post := [13] ++ rest) (by simp) rfl
  have e3 : (((32 * fields.length + 33 : Nat) : Int) - 33) / 32 = fields.length := by omega
  simp only [Reader.new, Reader.header, e1, ok_bind, e3, Int.toNat_natCast, e2]
  have e4 := read_at (r := { data := a ++ (ds.flatten ++ [13]) ++ rest, pos := (a ++ ds.flatten).length, numRecords := n, headerLength := 32 * fields.length + 33 })
    (pre := a ++ ds.flatten) (x := [13]) (post := rest) (by simp) rfl (n := 1) rfl
  rw [e4]
  simp only [decide_true, pyAssert, if_true, ok_bind, pure, Except.pure]
  have e5 : (a ++ ds.flatten ++ [13]).length = 32 * fields.length + 33 := by rw [← hl, List.append_assoc]
  rw [e5, hl]
  rfl

theorem dropWhile_nil {p : Nat → Bool} {l : List Nat} (h : l.dropWhile p = []) : ∀ b ∈ l, p b = true := by
  induction l with
  | nil => simp
  | cons a l ih =>
    rw [List.dropWhile_cons] at h
    split at h
    · intro b hb
      rcases List.mem_cons.mp hb with rfl | hb
      · assumption
      · exact ih h b hb
    · cases h

theorem seen_name (f : Field) : (seen f).name ≠ deletionField.name := by
  intro h
  have h1 : (seen f).name.length ≤ 10 := by
    have hl := packName_length f.name
    have : (cutName (packName f.name)).length ≤ 10 := by
      simp only [cutName]
      split
      · rename_i h0
        have : ((packName f.name).takeWhile (· ≠ 0)).length < (packName f.name).length := by
          have e := congrArg List.length (List.takeWhile_append_dropWhile (p := fun x => decide (x ≠ 0)) (l := packName f.name))
          rw [List.length_append] at e
          have : (packName f.name).dropWhile (fun x => decide (x ≠ 0)) ≠ [] := by
            intro hd
            simpa using dropWhile_nil hd 0 h0
          have := List.length_pos_iff.mpr this
          omega
        omega
      · rw [List.length_dropLast]; omega
    have h2 : (lstrip ((cutName (packName f.name)).map Char.ofNat)).length ≤ ((cutName (packName f.name)).map Char.ofNat).length :=
      (List.dropWhile_sublist _).length_le
    rw [List.length_map] at h2
    exact Nat.le_trans h2 this
  rw [h] at h1
  exact absurd h1 (by decide)

/-! ### Values -/

theorem byteSpace_isSpace {c : Char} (h : byteSpace c.toNat = true) : isSpace c = true := by
  simp only [byteSpace, isSpace, Bool.or_eq_true, Bool.and_eq_true, decide_eq_true_eq, beq_iff_eq] at *
  omega

theorem bstrip_nil {bs : List Byte} (h : bstrip bs = []) : ∀ b ∈ bs, byteSpace b = true := by
  simp only [bstrip, List.reverse_eq_nil_iff] at h
  have h1 : ∀ b ∈ bs.dropWhile byteSpace, byteSpace b = true := by
    intro b hb
    exact dropWhile_nil h b (by simpa using hb)
  by_cases hn : bs.dropWhile byteSpace = []
  · exact dropWhile_nil hn
  · have := List.head_dropWhile_not byteSpace hn
    have h2 := h1 _ (List.head_mem hn)
    rw [h2] at this
    cases this

theorem bstrip_id {bs : List Byte} (h : ∀ b ∈ bs, byteSpace b = false) : bstrip bs = bs := by
  have d : ∀ l : List Byte, (∀ b ∈ l, byteSpace b = false) → l.dropWhile byteSpace = l := by
    intro l hl
    cases l with
    | nil => rfl
    | cons a l => simp [hl a (by simp)]
  rw [bstrip, d bs h, d bs.reverse (fun b hb => h b (by simpa using hb)), List.reverse_reverse]

theorem bstrip_blanks (k : Nat) (bs : List Byte) : bstrip (List.replicate k 32 ++ bs) = bstrip bs := by
  have : (List.replicate k 32 ++ bs).dropWhile byteSpace = bs.dropWhile byteSpace := by
    induction k with
    | zero => rfl
    | succ k ih => simpa [List.replicate_succ, byteSpace] using ih
  rw [bstrip, this, bstrip]

theorem upper_eq {c d : Char} (hd : 65 ≤ d.toNat ∧ d.toNat ≤ 90) (h : upperChar c = d) : c = d ∨ c.toNat = d.toNat + 32 := by
  unfold upperChar at h
  split at h
  · rename_i hc
    right
    have hv : (Char.ofNat (c.toNat - 32)).toNat = c.toNat - 32 := by
      have : (c.toNat - 32).isValidChar := Or.inl (by omega)
      rw [Char.ofNat, dif_pos this]
      rfl
    rw [← h, hv]
    omega
  · exact Or.inl h

theorem char_eq {c d : Char} (h : c.toNat = d.toNat) : c = d := by rw [← ofNat_toNat c, h, ofNat_toNat]

section
variable {F : Type} (pyFloat : List Byte → Py F)

/-- A value that fits is written with the size of its field, and read again. -/
theorem value_ok {f : Field} {v : Attr} {out : Value F} (h : Fits f v out) {bs : List Byte} (hw : writeValue f v = .ok bs) :
    bs.length = f.size.toNat ∧ parseValue pyFloat (seen f) bs = .ok out := by
  simp only [writeValue, Py.bind_ok] at hw
  obtain ⟨t, ht, u, ha, hw⟩ := hw
  cases hw
  have hsize : (t.length : Int) = f.size := by
    simp only [pyAssert] at ha
    split at ha
    · rename_i hh; simpa using hh
    · cases ha
  cases h with
  | text hty hne hasc hsp hlen =>
    rename_i s
    obtain ⟨c, hc, hc1, hc2, hc3, hc4⟩ := hty
    have hN : f.type.map upperChar ≠ ['N'] := by
      intro hh
      rw [hc] at hh
      rcases upper_eq (by decide) (List.cons.inj hh).1 with h | h
      · exact hc1 h
      · exact hc2 (char_eq h)
    have hL : f.type.map upperChar ≠ ['L'] := by
      intro hh
      rw [hc] at hh
      rcases upper_eq (by decide) (List.cons.inj hh).1 with h | h
      · exact hc3 h
      · exact hc4 (char_eq h)
    simp only [layout, if_neg hN, if_neg hL, Attr.str] at ht
    cases ht
    have htake : s.take f.size.toNat = s := List.take_of_length_le (by omega)
    rw [htake] at hsize ⊢
    have hAsc : Ascii (ljust f.size.toNat s) := ascii_append hasc (ascii_blanks _)
    rw [enc_ascii hAsc]
    refine ⟨by rw [List.length_map]; omega, ?_⟩
    obtain ⟨a, l, rfl⟩ : ∃ a l, s = a :: l := by
      cases s with
      | nil => exact absurd rfl hne
      | cons a l => exact ⟨a, l, rfl⟩
    have hb : bstrip ((ljust f.size.toNat (a :: l)).map Char.toNat) ≠ [] := by
      intro hh
      have := bstrip_nil hh a.toNat (by simp [ljust])
      have h1 := byteSpace_isSpace this
      rw [hsp.1 a rfl] at h1
      cases h1
    have hNN : (seen f).type ≠ ['N'] := by
      simp only [seen, hc]
      simpa using hc1
    simp only [parseValue, if_neg hb, if_neg hNN, dec_ascii hAsc, ok_bind, pure, Except.pure]
    congr 2
    rw [strip, ljust, lstrip_id (by intro x hx; exact hsp.1 x (by simpa using hx)), rstrip_blanks, rstrip_id hsp.2]
  | int hty hlen =>
    rename_i n
    obtain ⟨hty, hdec⟩ := hty
    have hN : f.type.map upperChar = ['N'] := by rw [hty]; decide
    simp only [layout, if_pos hN, Attr.str] at ht
    cases ht
    have hAsc : Ascii (rjust f.size.toNat (decInt n)) := ascii_append (ascii_blanks _) (ascii_decInt n)
    rw [enc_ascii hAsc]
    refine ⟨by rw [List.length_map]; omega, ?_⟩
    have hchars : ∀ b ∈ (decInt n).map Char.toNat, byteSpace b = false ∧ b ≠ 0 := by
      intro b hb
      obtain ⟨c, hc, rfl⟩ := List.mem_map.mp hb
      have := decInt_noSpace n c hc
      refine ⟨?_, ?_⟩
      · cases hs : byteSpace c.toNat with
        | false => rfl
        | true => rw [byteSpace_isSpace hs] at this; cases this
      · rcases decInt_chars n c hc with rfl | ⟨d, hd, rfl⟩
        · decide
        · rw [digitChar_toNat hd]; omega
    have e : (rjust f.size.toNat (decInt n)).map Char.toNat =
        List.replicate (f.size.toNat - (decInt n).length) 32 ++ (decInt n).map Char.toNat := by
      simp [rjust]
    have hb : bstrip (List.replicate (f.size.toNat - (decInt n).length) 32 ++ (decInt n).map Char.toNat) = (decInt n).map Char.toNat := by
      rw [bstrip_blanks, bstrip_id (fun b hb => (hchars b hb).1)]
    have hne : (decInt n).map Char.toNat ≠ [] := by simpa using decInt_ne_nil n
    have hf : (List.replicate (f.size.toNat - (decInt n).length) 32 ++ (decInt n).map Char.toNat).filter (· ≠ 0) =
        List.replicate (f.size.toNat - (decInt n).length) 32 ++ (decInt n).map Char.toNat := by
      rw [List.filter_eq_self]
      intro b hb
      rcases List.mem_append.mp hb with hb | hb
      · rw [List.eq_of_mem_replicate hb]; decide
      · simpa using (hchars b hb).2
    have hty' : (seen f).type = ['N'] := hty
    have hdec' : (seen f).deci = 0 := hdec
    rw [e, parseValue, if_neg (by rw [hb]; exact hne), if_pos hty', parseNumber, hf, hb, if_neg hne, hdec', if_neg (by simp)]
    have : intOfBytes ((decInt n).map Char.toNat) = .ok n := by
      simp only [intOfBytes, List.map_map]
      rw [show (Char.ofNat ∘ Char.toNat) = id from funext ofNat_toNat, List.map_id, readInt_decInt]
    rw [this]
    rfl

theorem row_ok {fields : List Field} {record : List Attr} {outs : List (Value F)} (h : Row fields record outs) {vs : List (List Byte)}
    (hw : (fields.zip record).mapM (fun p => writeValue p.1 p.2) = .ok vs) :
    vs.flatten.length = (fields.map (fun f => f.size.toNat)).sum ∧
      parseValues pyFloat (fields.map seen) (chunks (fields.map (fun f => f.size.toNat)) vs.flatten) = .ok outs := by
  rw [Py.mapM_ok] at hw
  induction h generalizing vs with
  | nil =>
    cases hw
    exact ⟨rfl, rfl⟩
  | cons hf _ ih =>
    rename_i f fs v vs' out outs _
    rw [List.zip_cons_cons] at hw
    cases hw with
    | cons hx hw =>
      rename_i b bs
      obtain ⟨h1, h2⟩ := value_ok pyFloat hf hx
      obtain ⟨h3, h4⟩ := ih hw
      refine ⟨by simp [h1, h3], ?_⟩
      simp only [List.map_cons, List.flatten_cons, chunks, parseValues]
      rw [if_neg (seen_name f), List.take_left' h1, List.drop_left' h1, h2, ok_bind, h4]
      rfl

/-- What is read of a record. -/
theorem record_ok {fields : List Field} (hk : ∀ f ∈ fields, f.deletes = false) {record : List Attr} {outs : List (Value F)} (h : Row fields record outs)
    {bs : List Byte} (hw : writeRecord fields record = .ok bs) :
    bs.length = 1 + (fields.map (fun f => f.size.toNat)).sum ∧
      parse pyFloat (deletionField :: fields.map seen) bs = .ok (some outs) := by
  simp only [writeRecord, Py.bind_ok] at hw
  obtain ⟨flag, hflag, vs, hvs, hw⟩ := hw
  cases hw
  have hfl : flag = [32] := by
    simp only [writeFlag] at hflag
    split at hflag
    · cases hflag
    · rename_i f fs
      cases hflag
      simp [hk f (by simp)]
  subst hfl
  obtain ⟨h1, h2⟩ := row_ok pyFloat h hvs
  refine ⟨by simp [h1]; omega, ?_⟩
  have e : (deletionField :: fields.map seen).map (fun f => f.size.toNat) = 1 :: fields.map (fun f => f.size.toNat) := by
    simp only [List.map_cons, List.map_map]
    rfl
  simp only [parse, e, chunks, List.cons_append, List.nil_append, List.take_succ_cons, List.take_zero, List.drop_succ_cons, List.drop_zero, List.head?_cons]
  rw [if_neg (by simp)]
  simp only [parseValues, if_true, h2, ok_bind]
  rfl

/-! ### The loop of `records` -/

theorem next_eq {r : Reader} (hn : r.numRecords ≠ 0) :
    r.next pyFloat = (do
      let bs := (r.data.drop r.pos).take r.recSize
      if bs.length = r.recSize then return ({ r with pos := r.pos + bs.length }, ← parse pyFloat r.fields bs) else .error .structError) := by
  have : r.again = .ok r := by simp [Reader.again, hn]
  simp only [Reader.next, this, ok_bind, Reader.read]
  rfl

theorem next_ok {r r' : Reader} (hn : r.numRecords ≠ 0) {x : Option (List (Value F))} (h : r.next pyFloat = .ok (r', x)) :
    r' = { r with pos := r.pos + r.recSize } := by
  rw [next_eq pyFloat hn] at h
  dsimp only at h
  split at h
  · rename_i hl
    obtain ⟨y, hy, h⟩ := Py.bind_ok.mp h
    cases h
    rw [hl]
  · cases h

/-- A record that counts. -/
def kept : Option (List (Value F)) → Option (List (Value F))
  | some (v :: vs) => some (v :: vs)
  | _ => none

theorem loop_ok {n : Nat} {r r' : Reader} (hn : r.numRecords ≠ 0) {xs : List (List (Value F))} (h : Reader.loop pyFloat n r = .ok (r', xs)) :
    ∃ os : List (Option (List (Value F))), os.length = n ∧ xs = os.filterMap kept ∧ r' = { r with pos := r.pos + n * r.recSize } ∧
      ∀ i x, os[i]? = some x → Reader.next pyFloat { r with pos := r.pos + i * r.recSize } = .ok ({ r with pos := r.pos + (i + 1) * r.recSize }, x) := by
  induction n generalizing r r' xs with
  | zero =>
    cases h
    exact ⟨[], rfl, rfl, by simp, by simp⟩
  | succ n ih =>
    obtain ⟨⟨r1, x⟩, h1, h⟩ := Py.bind_ok.mp h
    obtain ⟨⟨r2, ys⟩, h2, h⟩ := Py.bind_ok.mp h
    have e1 := next_ok pyFloat hn h1
    subst e1
    obtain ⟨os, hl, rfl, rfl, hall⟩ := ih (r := { r with pos := r.pos + r.recSize }) hn h2
    cases h
    have esz : Reader.recSize { r with pos := r.pos + r.recSize } = r.recSize := rfl
    refine ⟨x :: os, by simp [hl], ?_, ?_, ?_⟩
    · rw [List.filterMap_cons]
      match x with
      | none => rfl
      | some [] => rfl
      | some (v :: vs) => rfl
    · rw [esz]
      congr 1
      dsimp only
      rw [Nat.add_mul]
      omega
    · intro i y hy
      cases i with
      | zero =>
        simp at hy
        subst hy
        simpa using h1
      | succ i =>
        have := hall i y (by simpa using hy)
        rw [esz] at this
        dsimp only at this
        rw [show r.pos + (i + 1) * r.recSize = r.pos + r.recSize + i * r.recSize by rw [Nat.add_mul]; omega,
          show r.pos + (i + 1 + 1) * r.recSize = r.pos + r.recSize + (i + 1) * r.recSize by rw [Nat.add_mul (i + 1) 1]; omega]
        exact this

theorem loop_of {r : Reader} (hn : r.numRecords ≠ 0) {bss : List (List Byte)} {xs : List (List (Value F))} {pre : List Byte} {sz : Nat}
    (hsz : r.recSize = sz) {fs : List Field} (hfs : r.fields = fs)
    (h : List.Forall₂ (fun bs x => bs.length = sz ∧ parse pyFloat fs bs = .ok (some x) ∧ x ≠ []) bss xs)
    (hd : r.data = pre ++ bss.flatten) (hp : r.pos = pre.length) :
    Reader.loop pyFloat bss.length r = .ok ({ r with pos := (pre ++ bss.flatten).length }, xs) := by
  induction h generalizing r pre with
  | nil => simp [Reader.loop, ← hp]
  | cons hx _ ih =>
    rename_i bs x bss xs hall
    obtain ⟨h1, h2, h3⟩ := hx
    have hnext : r.next pyFloat = .ok ({ r with pos := (pre ++ bs).length }, some x) := by
      have e : (r.data.drop r.pos).take r.recSize = bs := by
        rw [hd, hp, List.drop_left, List.flatten_cons, List.take_left' (by rw [hsz]; exact h1)]
      rw [next_eq pyFloat hn]
      dsimp only
      rw [e, if_pos (by rw [hsz]; exact h1), hfs, h2, ok_bind, List.length_append, hp]
      rfl
    have := ih (r := { r with pos := (pre ++ bs).length }) (pre := pre ++ bs) hn hsz hfs (by simpa using hd) rfl
    simp only [List.length_cons, Reader.loop, hnext, ok_bind, this]
    match x, h3 with
    | v :: vs, _ => simp [pure, Except.pure]

end

end Dbf
end Coral
