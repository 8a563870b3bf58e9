import Verif.Proofs.Dbf
import Verif.Props.Shapefile

/-!
# Properties of the attribute file (C88, C89, C90, C100)
-/
namespace Coral
namespace Dbf

set_option linter.unusedSectionVars false

open Shapefile (ok_bind restrictIndex)

section
variable {F : Type} (pyFloat : List Byte → Py F)

/-! ### C88 -/

theorem saveDbf_ok {w w' : Writer} {y m d : Int} {data : List Byte} (h : w.saveDbf y m d = .ok (w', data)) (hk : ∀ f ∈ w.fields, f.deletes = false) :
    ∃ hd rs, w' = w ∧ header y m d w.fields w.records.length = .ok hd ∧ w.records.mapM (writeRecord w.fields) = .ok rs ∧ data = hd ++ rs.flatten := by
  simp only [Writer.saveDbf, dropDeletion_id hk, Py.bind_ok] at h
  obtain ⟨hd, h1, rs, h2, h⟩ := h
  cases h
  exact ⟨hd, rs, rfl, h1, h2, rfl⟩

/-- C88, what holds: if every value fits its field (text that is not blank, ASCII, without blanks around it; integers in number fields without
decimals), what was saved is read by `records()`, wherever the file was read before. Missing: blank text, text that is not ASCII, and files
without records, see below. -/
theorem C88_records_back_partial {w w' : Writer} {y m d : Int} {data : List Byte} (h : w.saveDbf y m d = .ok (w', data))
    (hf : ∀ f ∈ w.fields, Ascii f.name ∧ f.deletes = false) (hne : w.records ≠ []) {outs : List (List (Value F))}
    (hrow : List.Forall₂ (Row w.fields) w.records outs) :
    ∃ r, Reader.new data = .ok r ∧ ∀ pos, ∃ r', Reader.records pyFloat { r with pos := pos } = .ok (r', outs) := by
  obtain ⟨hd, rs, -, h1, h2, rfl⟩ := saveDbf_ok h (fun f hf' => (hf f hf').2)
  obtain ⟨hlen, hnew⟩ := new_ok h1 (fun f hf' => (hf f hf').1) rs.flatten
  refine ⟨_, hnew, fun pos => ?_⟩
  rw [Py.mapM_ok] at h2
  have hrl : w.records.length = rs.length := h2.length_eq
  have hn : w.records.length ≠ 0 := by simpa using hne
  have hfne : w.fields ≠ [] := by
    match w.records, hne, rs, h2 with
    | x :: _, _, _ :: _, .cons hx _ =>
      intro he
      simp only [writeRecord, he, writeFlag] at hx
      cases hx
  have hall : List.Forall₂ (fun bs (x : List (Value F)) => bs.length = 1 + (w.fields.map (fun f => f.size.toNat)).sum ∧
      parse pyFloat (deletionField :: w.fields.map seen) bs = .ok (some x) ∧ x ≠ []) rs outs := by
    clear hn hne hrl hnew h h1
    generalize w.records = recs at h2 hrow
    induction h2 generalizing outs with
    | nil => cases hrow; exact .nil
    | cons hx _ ih =>
      cases hrow with
      | cons hr hrs =>
        obtain ⟨a, b⟩ := record_ok pyFloat (fun f hf' => (hf f hf').2) hr hx
        refine .cons ⟨a, b, ?_⟩ (ih hrs)
        rintro rfl
        generalize hfs : w.fields = fs at hr hfne
        cases hr
        exact hfne rfl
  have hsz : ∀ p, Reader.recSize { data := hd ++ rs.flatten, pos := p, numRecords := w.records.length, headerLength := hd.length, fields := deletionField :: w.fields.map seen } =
      1 + (w.fields.map (fun f => f.size.toNat)).sum := by
    intro p
    simp only [Reader.recSize, List.map_cons, List.map_map, List.sum_cons]
    rfl
  have := loop_of pyFloat (r := { data := hd ++ rs.flatten, pos := hd.length, numRecords := w.records.length, headerLength := hd.length, fields := deletionField :: w.fields.map seen })
    hn (hsz _) rfl hall rfl rfl
  have hh : hd.length ≠ 0 := by omega
  rw [← hrl] at this
  simp only [Reader.records, Reader.again, Reader.length, if_neg hn, if_neg hh, ok_bind]
  exact ⟨_, this⟩

/-- C88: saving works when the fields can be written and all values fit. -/
theorem C88_saving_works {w : Writer} {y m d : Int} (hy : 0 ≤ y ∧ y ≤ 255) (hm : 0 ≤ m ∧ m ≤ 255) (hd : 0 ≤ d ∧ d ≤ 255)
    (hf : ∀ f ∈ w.fields, FieldOk f) (hfne : w.fields ≠ []) (hfl : w.fields.length ≤ 2046) (hs : (w.fields.map Field.size).sum ≤ 65534)
    (hn : w.records.length < 4294967296) {outs : List (List (Value F))} (hrow : List.Forall₂ (Row w.fields) w.records outs) :
    ∃ data, w.saveDbf y m d = .ok (w, data) := by
  have hk : ∀ f ∈ w.fields, f.deletes = false := fun f hf' => (hf f hf').kept
  have hpos : 0 ≤ (w.fields.map Field.size).sum := by
    clear * - hf
    generalize w.fields = fs at hf
    induction fs with
    | nil => simp
    | cons f fs ih =>
      have := (hf f (by simp)).size
      have := ih (fun g hg => hf g (by simp [hg]))
      simp only [List.map_cons, List.sum_cons]
      omega
  obtain ⟨ds, hds⟩ : ∃ ds, w.fields.mapM descriptor = .ok ds := by
    clear * - hf
    generalize w.fields = fs at hf
    induction fs with
    | nil => exact ⟨[], rfl⟩
    | cons f fs ih =>
      obtain ⟨b, hb⟩ := descriptor_of (hf f (by simp))
      obtain ⟨ds, hds⟩ := ih (fun g hg => hf g (by simp [hg]))
      exact ⟨b :: ds, by rw [List.mapM_cons, hb, ok_bind, hds]; rfl⟩
  obtain ⟨bv, hbv⟩ := packL_of (n := 1) (v := 3) (by omega) (by decide)
  obtain ⟨by', hby⟩ := packL_of (n := 1) (v := y) hy.1 (by simp; omega)
  obtain ⟨bm, hbm⟩ := packL_of (n := 1) (v := m) hm.1 (by simp; omega)
  obtain ⟨bd, hbd⟩ := packL_of (n := 1) (v := d) hd.1 (by simp; omega)
  obtain ⟨bn, hbn⟩ := packL_of (n := 4) (v := w.records.length) (by omega) (by simp; omega)
  obtain ⟨bh, hbh⟩ := packL_of (n := 2) (v := (w.fields.length * 32 + 33 : Nat)) (by omega) (by simp; omega)
  obtain ⟨br, hbr⟩ := packL_of (n := 2) (v := (w.fields.map Field.size).sum + 1) (by omega) (by simp; omega)
  have hval : ∀ {f : Field} {v : Attr} {out : Value F}, Fits f v out → ∃ bs, writeValue f v = .ok bs := by
    intro f v out hfit
    have : ∃ t, layout f v.str = .ok t ∧ (t.length : Int) = f.size := by
      cases hfit with
      | text hty hne hasc hsp hlen =>
        obtain ⟨c, hc, hc1, hc2, hc3, hc4⟩ := hty
        have hN : f.type.map upperChar ≠ ['N'] := by
          intro hh
          rw [hc] at hh
          rcases upper_eq (by decide) (List.cons.inj hh).1 with h | h
          · exact hc1 h
          · exact hc2 (char_eq h)
        have hL : f.type.map upperChar ≠ ['L'] := by
          intro hh
          rw [hc] at hh
          rcases upper_eq (by decide) (List.cons.inj hh).1 with h | h
          · exact hc3 h
          · exact hc4 (char_eq h)
        simp only [layout, if_neg hN, if_neg hL, Attr.str]
        refine ⟨_, rfl, ?_⟩
        rw [List.take_of_length_le (by omega)]
        simp only [ljust, List.length_append, List.length_replicate]
        omega
      | int hty hlen =>
        simp only [layout, hty.1, Attr.str]
        rw [if_pos (by decide)]
        refine ⟨_, rfl, ?_⟩
        simp only [rjust, List.length_append, List.length_replicate]
        omega
    obtain ⟨t, ht, hl⟩ := this
    simp only [writeValue, ht, ok_bind, hl, decide_true, pyAssert, if_true]
    exact ⟨_, rfl⟩
  have hrec : ∀ {fs : List Field} {vs : List Attr} {os : List (Value F)}, Row fs vs os → ∃ bs, (fs.zip vs).mapM (fun p => writeValue p.1 p.2) = .ok bs := by
    intro fs vs os hr
    induction hr with
    | nil => exact ⟨[], rfl⟩
    | cons hfit _ ih =>
      obtain ⟨b, hb⟩ := hval hfit
      obtain ⟨bs, hbs⟩ := ih
      exact ⟨b :: bs, by rw [List.zip_cons_cons, List.mapM_cons, hb, ok_bind, hbs]; rfl⟩
  obtain ⟨flag, hflag⟩ : ∃ flag, writeFlag w.fields = .ok flag := by
    cases hh : w.fields with
    | nil => exact absurd hh hfne
    | cons f fs => exact ⟨_, rfl⟩
  obtain ⟨rs, hrs⟩ : ∃ rs, w.records.mapM (writeRecord w.fields) = .ok rs := by
    clear hn hbn
    generalize w.records = recs at hrow
    induction hrow with
    | nil => exact ⟨[], rfl⟩
    | cons hr _ ih =>
      obtain ⟨bs, hbs⟩ := hrec hr
      obtain ⟨rs, hrs⟩ := ih
      exact ⟨(flag ++ bs.flatten) :: rs, by rw [List.mapM_cons, writeRecord, hflag, ok_bind, hbs]; simp only [ok_bind, hrs, pure, Except.pure]⟩
  simp only [Writer.saveDbf, dropDeletion_id hk, header, hbv, hby, hbm, hbd, hbn, hbh, hbr, hds, hrs, ok_bind, pure, Except.pure]
  exact ⟨_, rfl⟩

/-- C88 fails without records: reading any such file back raises, `struct.error` or, without fields, `AssertionError`. -/
theorem C88_violated_empty {w w' : Writer} {y m d : Int} {data : List Byte} (h : w.saveDbf y m d = .ok (w', data))
    (hf : ∀ f ∈ w.fields, Ascii f.name ∧ f.deletes = false) (he : w.records = []) :
    ∃ r, Reader.new data = .ok r ∧ r.records pyFloat = .error (if w.fields = [] then .assertionError else .structError) := by
  obtain ⟨hd, rs, -, h1, h2, rfl⟩ := saveDbf_ok h (fun f hf' => (hf f hf').2)
  rw [he] at h2
  cases h2
  obtain ⟨hlen, hnew⟩ := new_ok h1 (fun f hf' => (hf f hf').1) []
  refine ⟨_, by simpa using hnew, ?_⟩
  simp only [Reader.records, Reader.again, he, List.length_nil, if_true, Reader.header, Reader.length]
  rw [if_neg (by omega), ok_bind]
  have e3 : ((hd.length : Int) - 33) / 32 = w.fields.length := by omega
  dsimp only
  rw [e3, Int.toNat_natCast]
  by_cases hfe : w.fields = []
  · simp only [hfe, List.length_nil, Reader.readFields, ok_bind, Reader.read, List.append_nil, List.drop_length]
    rfl
  · obtain ⟨k, hk⟩ : ∃ k, w.fields.length = k + 1 := ⟨w.fields.length - 1, by have := List.length_pos_iff.mpr hfe; omega⟩
    simp only [hk, Reader.readFields, Reader.readField, Reader.read, List.append_nil, List.drop_length, if_neg hfe]
    rfl

/-- C88 fails for empty text, in fields for text as well as for numbers: it comes back as a `bytes` object full of blanks (in logical fields it
cannot be saved). -/
theorem C88_violated_blank {f : Field} (hok : FieldOk f) {y m d : Int} {data : List Byte} {w' : Writer}
    (h : Writer.saveDbf { fields := [f], records := [[.text []]] } y m d = .ok (w', data)) :
    ∃ r r', Reader.new data = .ok r ∧ r.records pyFloat = .ok (r', [[.raw (List.replicate f.size.toNat 32)]]) := by
  obtain ⟨hd, rs, -, h1, h2, rfl⟩ := saveDbf_ok h (fun g hg => by rw [List.mem_singleton.mp hg]; exact hok.kept)
  obtain ⟨hlen, hnew⟩ := new_ok h1 (fun g hg => by rw [List.mem_singleton.mp hg]; exact hok.name) rs.flatten
  have hw : writeValue f (.text []) = .ok (List.replicate f.size.toNat 32) := by
    have hs := hok.size
    have hlay : layout f [] = .ok (List.replicate f.size.toNat ' ') := by
      by_cases hN : f.type.map upperChar = ['N']
      · simp [layout, if_pos hN, rjust]
      · by_cases hL : f.type.map upperChar = ['L']
        · have : writeRecord [f] [.text []] = .error .indexError := by
            simp only [writeRecord, writeFlag, hok.kept, List.zip_cons_cons, List.zip_nil_right, List.mapM_cons, List.mapM_nil, writeValue, Attr.str, layout,
              if_neg hN, if_pos hL]
            rfl
          simp only [List.mapM_cons, this] at h2
          cases h2
        · simp [layout, if_neg hN, if_neg hL, ljust]
    simp only [writeValue, Attr.str, hlay, ok_bind]
    rw [enc_ascii (ascii_blanks _)]
    simp only [List.length_replicate, pyAssert]
    rw [if_pos (by simp; omega)]
    simp [pure, Except.pure, ok_bind]
  have hrec : writeRecord [f] [.text []] = .ok (32 :: List.replicate f.size.toNat 32) := by
    simp only [writeRecord, writeFlag, hok.kept, List.zip_cons_cons, List.zip_nil_right, List.mapM_cons, List.mapM_nil, hw, ok_bind, pure, Except.pure]
    simp
  have hrs : rs = [32 :: List.replicate f.size.toNat 32] := by
    simp only [List.mapM_cons, List.mapM_nil, hrec, ok_bind, pure, Except.pure] at h2
    exact (Except.ok.inj h2).symm
  subst hrs
  have hb : bstrip (List.replicate f.size.toNat 32) = [] := by
    have := bstrip_blanks f.size.toNat []
    rw [List.append_nil] at this
    rw [this]
    rfl
  have hparse : parse pyFloat (deletionField :: [f].map seen) (32 :: List.replicate f.size.toNat 32) = .ok (some [.raw (List.replicate f.size.toNat 32)]) := by
    have e : (deletionField :: [f].map seen).map (fun f => f.size.toNat) = [1, f.size.toNat] := rfl
    have et : (List.replicate f.size.toNat 32).take f.size.toNat = List.replicate f.size.toNat 32 := List.take_of_length_le (by simp)
    simp only [parse, e, chunks, List.take_succ_cons, List.take_zero, List.drop_succ_cons, List.drop_zero, List.head?_cons, et]
    rw [if_neg (by simp)]
    simp only [List.map_cons, List.map_nil, parseValues, if_true, if_neg (seen_name f), parseValue, hb, ok_bind, pure, Except.pure]
  have hsz : ∀ p, Reader.recSize { data := hd ++ [32 :: List.replicate f.size.toNat 32].flatten, pos := p, numRecords := 1, headerLength := hd.length, fields := deletionField :: [f].map seen } =
      (32 :: List.replicate f.size.toNat 32).length := by
    intro p
    simp only [Reader.recSize, List.map_cons, List.map_nil, List.sum_cons, List.sum_nil, List.length_cons, List.length_replicate]
    rw [show (deletionField.size.toNat) = 1 from rfl, show (seen f).size = f.size from rfl]
    omega
  have := loop_of pyFloat (r := { data := hd ++ [32 :: List.replicate f.size.toNat 32].flatten, pos := hd.length, numRecords := 1, headerLength := hd.length, fields := deletionField :: [f].map seen })
    (by simp) (hsz _) rfl (.cons ⟨rfl, hparse, by simp⟩ .nil) rfl rfl
  have hh : hd.length ≠ 0 := by omega
  refine ⟨_, { data := hd ++ [32 :: List.replicate f.size.toNat 32].flatten, pos := (hd ++ [32 :: List.replicate f.size.toNat 32].flatten).length, numRecords := 1, headerLength := hd.length, fields := deletionField :: [f].map seen }, hnew, ?_⟩
  simp only [Reader.records, Reader.again, Reader.length, List.length_cons, List.length_nil, if_neg hh, ok_bind]
  rw [if_neg (by omega), ok_bind]
  simp only [if_neg hh, ok_bind]
  exact this

/-- A field for the examples. -/
def exampleField (size : Int) : Field := { name := ['a', 'b'], type := ['C'], size := size, deci := 0 }

/-- C88 fails for text that is not ASCII: here one `é` in a field of size 1, which cannot be decoded. -/
theorem C88_violated_unicode : (do
    let (_, data) ← Writer.saveDbf { fields := [exampleField 1], records := [[.text ['é']]] } 126 11 16
    let r ← Reader.new data
    r.records pyFloat) = .error .unicodeError := by
  have h1 : (do
    let (_, data) ← Writer.saveDbf { fields := [exampleField 1], records := [[.text ['é']]] } 126 11 16
    let r ← Reader.new data
    return ({ r with pos := r.headerLength }, r.numRecords, r.headerLength)) =
      .ok ({ data := [3, 126, 11, 16, 1, 0, 0, 0, 65, 0, 2, 0] ++ List.replicate 20 0 ++ [97, 98] ++ List.replicate 9 0 ++ [67, 0, 0, 0, 0, 1, 0] ++ List.replicate 14 0 ++ [13, 32, 195, 169]
             pos := 65
             numRecords := 1
             headerLength := 65
             fields := [deletionField, exampleField 1] }, 1, 65) := by
    decide +kernel
  simp only [Py.bind_ok] at h1
  obtain ⟨⟨w, data⟩, e1, r, e2, h1⟩ := h1
  obtain ⟨h2, h34⟩ := Prod.mk.inj (Except.ok.inj h1)
  obtain ⟨h3, h4⟩ := Prod.mk.inj h34
  have hr : r.again = .ok r := by simp [Reader.again, h3]
  have hl : r.length = .ok r := by simp [Reader.length, h4]
  rw [h3] at h2
  simp only [e1, e2, ok_bind, Reader.records, hr, hl, h3, Reader.loop]
  rw [h2]
  rfl

/-- Three records of two fields, saved and read. -/
example : (do
    let (_, data) ← Writer.saveDbf
      { fields := [exampleField 5, { name := ['n'], type := ['N'], size := 4, deci := 0 }]
        records := [[.text ['x', ' ', 'y'], .int (-12)], [.text ['z'], .int 0], [.text ['x', 'x', 'x', 'x', 'x'], .int 1234]] } 126 11 16
    let r ← Reader.new data
    let (_, rs) ← r.records (fun _ => (.ok 0 : Py Nat))
    return rs) = (.ok [[.text ['x', ' ', 'y'], .int (-12)], [.text ['z'], .int 0], [.text ['x', 'x', 'x', 'x', 'x'], .int 1234]] : Py (List (List (Value Nat)))) := by
  decide +kernel

/-- Those values fit. -/
example : Row (F := Nat) [exampleField 5, { name := ['n'], type := ['N'], size := 4, deci := 0 }] [.text ['x', ' ', 'y'], .int (-12)] [.text ['x', ' ', 'y'], .int (-12)] := by
  refine .cons (.text ⟨'C', rfl, by decide, by decide, by decide, by decide⟩ (by simp) ?_ (by decide) (by decide)) (.cons (.int ⟨rfl, rfl⟩ (by decide)) .nil)
  intro c hc
  simp only [List.mem_cons, List.not_mem_nil, or_false] at hc
  rcases hc with rfl | rfl | rfl <;> decide

/-! ### C89 -/

/-- `record(i)` of a file with records. -/
theorem record_eq {r : Reader} (hn : r.numRecords ≠ 0) (hh : r.headerLength ≠ 0) {i j : Int} (hi : restrictIndex (some r.numRecords) i = .ok j) (hj : 0 ≤ j) :
    r.record pyFloat i = Reader.next pyFloat { r with pos := r.headerLength + j.toNat * r.recSize } := by
  have e1 : r.again = .ok r := by simp [Reader.again, hn]
  have e2 : Reader.length { r with pos := 0 } = .ok { r with pos := 0 } := by simp [Reader.length, hh]
  simp only [Reader.record, e1, ok_bind, hi, e2]
  have e3 : (r.headerLength : Int) + j * r.recSize = ((r.headerLength + j.toNat * r.recSize : Nat) : Int) := by
    obtain ⟨k, rfl⟩ := Int.eq_ofNat_of_zero_le hj
    simp
  rw [e3, if_pos (by omega), Int.toNat_natCast]

/-- `records()` and `record(i)` read the same places. -/
theorem records_ok {r r' : Reader} (hn : r.numRecords ≠ 0) (hh : r.headerLength ≠ 0) {rs : List (List (Value F))} (h : r.records pyFloat = .ok (r', rs)) :
    ∃ os : List (Option (List (Value F))), os.length = r.numRecords ∧ rs = os.filterMap kept ∧
      ∀ (i : Nat) x, os[i]? = some x → ∃ r1, r.record pyFloat i = .ok (r1, x) := by
  have e1 : r.again = .ok r := by simp [Reader.again, hn]
  have e2 : r.length = .ok r := by simp [Reader.length, hh]
  simp only [Reader.records, e1, e2, ok_bind] at h
  obtain ⟨os, h1, h2, -, h3⟩ := loop_ok pyFloat (r := { r with pos := r.headerLength }) hn h
  refine ⟨os, h1, h2, ?_⟩
  intro i x hx
  have hi : i < r.numRecords := by rw [← h1]; exact (List.getElem?_eq_some_iff.mp hx).1
  have := (Shapefile.C90_indices_partial r.numRecords (by omega) i).1 (by omega)
  rw [if_neg (by omega)] at this
  rw [record_eq pyFloat hn hh this (by omega)]
  exact ⟨_, h3 i x hx⟩

/-- C89, what holds: if no record is deleted (and there are fields), `shapeRecords()[i]` is the i-th shape with what `record(i)` returns.
Missing: deleted records. -/
theorem C89_pairs_partial {S : Type} {r : Reader} (hn : r.numRecords ≠ 0) (hh : r.headerLength ≠ 0)
    (hkept : ∀ i : Nat, i < r.numRecords → ∃ r1 v vs, r.record pyFloat i = .ok (r1, some (v :: vs)))
    {ss : List S} {l : List (S × List (Value F))} (h : r.shapeRecords pyFloat (.ok ss) = .ok l) :
    l.length = min ss.length r.numRecords ∧
      ∀ (i : Nat) s rec, l[i]? = some (s, rec) → ss[i]? = some s ∧ ∃ r1, r.record pyFloat i = .ok (r1, some rec) := by
  simp only [Reader.shapeRecords, ok_bind, Py.bind_ok] at h
  obtain ⟨⟨r', rs⟩, hrs, h⟩ := h
  cases h
  obtain ⟨os, h1, rfl, h3⟩ := records_ok pyFloat hn hh hrs
  have hall : ∀ x ∈ os, ∃ v vs, x = some (v :: vs) := by
    intro x hx
    obtain ⟨i, hi, rfl⟩ := List.mem_iff_getElem.mp hx
    obtain ⟨r1, h4⟩ := h3 i _ (List.getElem?_eq_getElem hi)
    obtain ⟨r2, v, vs, h5⟩ := hkept i (by omega)
    rw [h5] at h4
    injection h4 with h4
    exact ⟨v, vs, (congrArg Prod.snd h4).symm⟩
  have hmap : (os.filterMap kept).map some = os := by
    clear * - hall
    induction os with
    | nil => rfl
    | cons x os ih =>
      obtain ⟨v, vs, rfl⟩ := hall x (by simp)
      rw [List.filterMap_cons]
      simp only [kept, List.map_cons]
      rw [ih (fun y hy => hall y (by simp [hy]))]
  refine ⟨?_, ?_⟩
  · have := congrArg List.length hmap
    rw [List.length_map, h1] at this
    rw [List.length_zip, this]
  · intro i s rec hi
    rw [List.getElem?_zip_eq_some] at hi
    refine ⟨hi.1, h3 i _ ?_⟩
    rw [← hmap, List.getElem?_map, hi.2]
    rfl

/-- C89 fails for deleted records: if the k-th record is the first deleted one and the next is there, the k-th shape is paired with the next record. -/
theorem C89_violated {S : Type} {r : Reader} (hn : r.numRecords ≠ 0) (hh : r.headerLength ≠ 0) {k : Nat} (hk : k + 1 < r.numRecords)
    (hbefore : ∀ i : Nat, i < k → ∃ r1 v vs, r.record pyFloat i = .ok (r1, some (v :: vs))) (hdel : ∃ r1, r.record pyFloat k = .ok (r1, none))
    {v : Value F} {vs : List (Value F)} (hnext : ∃ r1, r.record pyFloat (k + 1 : Nat) = .ok (r1, some (v :: vs)))
    {ss : List S} {s : S} (hs : ss[k]? = some s) {l : List (S × List (Value F))} (h : r.shapeRecords pyFloat (.ok ss) = .ok l) :
    l[k]? = some (s, v :: vs) := by
  simp only [Reader.shapeRecords, ok_bind, Py.bind_ok] at h
  obtain ⟨⟨r', rs⟩, hrs, h⟩ := h
  cases h
  obtain ⟨os, h1, rfl, h3⟩ := records_ok pyFloat hn hh hrs
  have hlt : k < os.length := by omega
  have e : os = os.take k ++ os[k] :: os[k + 1] :: os.drop (k + 2) := by
    conv => lhs; rw [← List.take_append_drop k os]
    rw [List.drop_eq_getElem_cons hlt, List.drop_eq_getElem_cons (by omega)]
  have ek : os[k] = none := by
    obtain ⟨r1, a⟩ := h3 k _ (List.getElem?_eq_getElem hlt)
    obtain ⟨r2, b⟩ := hdel
    rw [b] at a
    injection a with a
    exact (congrArg Prod.snd a).symm
  have ek1 : os[k + 1]'(by omega) = some (v :: vs) := by
    obtain ⟨r1, a⟩ := h3 (k + 1) _ (List.getElem?_eq_getElem (by omega))
    obtain ⟨r2, b⟩ := hnext
    rw [b] at a
    injection a with a
    exact (congrArg Prod.snd a).symm
  have hlen : ((os.take k).filterMap kept).length = k := by
    have hall : ∀ x ∈ os.take k, ∃ v vs, x = some (v :: vs) := by
      intro x hx
      obtain ⟨i, hi, rfl⟩ := List.mem_iff_getElem.mp hx
      rw [List.length_take] at hi
      obtain ⟨r1, a⟩ := h3 i _ (List.getElem?_eq_getElem (by omega))
      obtain ⟨r2, v, vs, b⟩ := hbefore i (by omega)
      rw [b] at a
      injection a with a
      exact ⟨v, vs, by rw [List.getElem_take]; exact (congrArg Prod.snd a).symm⟩
    have : (os.take k).length = k := by rw [List.length_take]; omega
    have key : ∀ xs : List (Option (List (Value F))), (∀ x ∈ xs, ∃ v vs, x = some (v :: vs)) → (xs.filterMap kept).length = xs.length := by
      intro xs hall
      induction xs with
      | nil => rfl
      | cons x xs ih =>
        obtain ⟨v, vs, rfl⟩ := hall x (by simp)
        rw [List.filterMap_cons]
        simp only [kept, List.length_cons, ih (fun y hy => hall y (by simp [hy]))]
    rw [key _ hall, this]
  rw [List.getElem?_zip_eq_some]
  refine ⟨hs, ?_⟩
  rw [e, List.filterMap_append, List.getElem?_append_right (by omega), hlen, Nat.sub_self, ek, ek1]
  rfl

/-- Two records, the first deleted: `shapeRecords()` pairs the first shape with the second record. -/
example : (do
    let (_, data) ← Writer.saveDbf { fields := [exampleField 2], records := [[.text ['x']], [.text ['y']]] } 126 11 16
    let r ← Reader.new (data.set 65 42)
    r.shapeRecords (fun _ => (.ok 0 : Py Nat)) (.ok ["first", "second"])) = (.ok [("first", [.text ['y']])] : Py (List (String × List (Value Nat)))) := by
  decide +kernel

/-! ### C90 -/

/-- C90 for `record(i)`: a negative index above -n gives what n+i gives. -/
theorem C90_negative_record_partial {r : Reader} {i : Int} (h1 : -r.numRecords < i) (h2 : i < 0) : r.record pyFloat i = r.record pyFloat (r.numRecords + i) := by
  have e1 := (Shapefile.C90_indices_partial r.numRecords (by omega) i).1 (by omega)
  have e2 := (Shapefile.C90_indices_partial r.numRecords (by omega) (r.numRecords + i)).1 (by omega)
  rw [if_pos h2] at e1
  rw [if_neg (by omega)] at e2
  have e3 : r.again = .ok r := by simp only [Reader.again]; rw [if_neg (by omega)]
  simp only [Reader.record, e3, ok_bind, e1, e2]

/-- C90 for `record(i)`: asking for the first of n records as -n raises `IndexError`. -/
theorem C90_violated_first_record {r : Reader} (hn : r.numRecords ≠ 0) : r.record pyFloat (-r.numRecords) = .error .indexError := by
  have e := (Shapefile.C90_indices_partial r.numRecords (by omega) (-r.numRecords)).2 (by omega)
  have e3 : r.again = .ok r := by simp [Reader.again, hn]
  simp only [Reader.record, e3, ok_bind, e]
  rfl

end

/-! ### C100 -/

/-- The name that is left of the bytes of a name. -/
theorem seen_plain {f : Field} (ha : Ascii f.name) (hs : ∀ c ∈ f.name, c ≠ ' ' ∧ c.toNat ≠ 0) (hl : lstrip (f.name.take 10) = f.name.take 10) :
    seen f = { f with name := f.name.take 10 } := by
  have e1 : replaceByte 32 95 (enc f.name) = f.name.map Char.toNat := by
    rw [enc_ascii ha, replaceByte, List.map_map]
    refine List.map_congr_left fun c hc => ?_
    have : c.toNat ≠ 32 := fun h => (hs c hc).1 (char_eq (d := ' ') h)
    simp [this]
  have e2 : replaceByte 32 0 (f.name.map Char.toNat ++ List.replicate (11 - f.name.length) 32) = f.name.map Char.toNat ++ List.replicate (11 - f.name.length) 0 := by
    rw [replaceByte, List.map_append, List.map_map, List.map_replicate]
    congr 1
    refine List.map_congr_left fun c hc => ?_
    have : c.toNat ≠ 32 := fun h => (hs c hc).1 (char_eq (d := ' ') h)
    simp [this]
  have e3 : cutName (packName f.name) = (f.name.take 10).map Char.toNat := by
    simp only [packName, e1, List.length_map, e2, cutName]
    by_cases h : f.name.length ≤ 10
    · have hm : (f.name.map Char.toNat ++ List.replicate (11 - f.name.length) 0).take 11 = f.name.map Char.toNat ++ List.replicate (11 - f.name.length) 0 :=
        List.take_of_length_le (by simp; omega)
      rw [hm, if_pos (by simp; omega), List.takeWhile_append_of_pos, List.take_of_length_le h]
      · obtain ⟨k, hk⟩ : ∃ k, 11 - f.name.length = k + 1 := ⟨10 - f.name.length, by omega⟩
        rw [hk, List.replicate_succ, List.takeWhile_cons_of_neg (by simp), List.append_nil]
      · intro x hx
        obtain ⟨c, hc, rfl⟩ := List.mem_map.mp hx
        simpa using (hs c hc).2
    · have hz : 11 - f.name.length = 0 := by omega
      rw [hz, List.replicate_zero, List.append_nil, if_neg]
      · rw [List.dropLast_eq_take, List.take_take, List.length_take, List.length_map, List.map_take]
        congr 1
        omega
      · intro hm
        obtain ⟨c, hc, h0⟩ := List.mem_map.mp (List.mem_of_mem_take hm)
        exact (hs c hc).2 h0
  have e4 : ((f.name.take 10).map Char.toNat).map Char.ofNat = f.name.take 10 := by
    rw [List.map_map]
    conv => rhs; rw [← List.map_id (f.name.take 10)]
    refine List.map_congr_left fun c _ => ?_
    simp
  simp only [seen, e3, e4, hl]

/-- C100, what holds: fields with names of at most 10 ASCII characters, without spaces and zero characters and not starting with white space, are
what the `Reader` reports (after the flag for deleted records). Missing: other names, see below. -/
theorem C100_fields_back_partial {w w' : Writer} {y m d : Int} {data : List Byte} (h : w.saveDbf y m d = .ok (w', data))
    (hf : ∀ f ∈ w.fields, Ascii f.name ∧ f.deletes = false ∧ f.name.length ≤ 10 ∧ (∀ c ∈ f.name, c ≠ ' ' ∧ c.toNat ≠ 0) ∧ lstrip f.name = f.name) :
    ∃ r, Reader.new data = .ok r ∧ r.fields = deletionField :: w.fields ∧ r.numRecords = w.records.length := by
  obtain ⟨hd, rs, -, h1, h2, rfl⟩ := saveDbf_ok h (fun f hf' => (hf f hf').2.1)
  obtain ⟨hlen, hnew⟩ := new_ok h1 (fun f hf' => (hf f hf').1) rs.flatten
  refine ⟨_, hnew, ?_, rfl⟩
  have : w.fields.map seen = w.fields := by
    conv => rhs; rw [← List.map_id w.fields]
    refine List.map_congr_left fun f hf' => ?_
    obtain ⟨a, -, b, c, e⟩ := hf f hf'
    have ht : f.name.take 10 = f.name := List.take_of_length_le b
    rw [seen_plain a c (by rw [ht]; exact e), ht]
    rfl
  simp only [this]

/-- C100 fails for longer names: only the first ten characters come back, so fields that differ later get the same name. -/
theorem C100_violated_long {w w' : Writer} {y m d : Int} {data : List Byte} (h : w.saveDbf y m d = .ok (w', data))
    (hf : ∀ f ∈ w.fields, Ascii f.name ∧ f.deletes = false ∧ 10 < f.name.length ∧ (∀ c ∈ f.name, c ≠ ' ' ∧ c.toNat ≠ 0) ∧ lstrip (f.name.take 10) = f.name.take 10) :
    ∃ r, Reader.new data = .ok r ∧ r.fields = deletionField :: w.fields.map (fun f => { f with name := f.name.take 10 }) := by
  obtain ⟨hd, rs, -, h1, h2, rfl⟩ := saveDbf_ok h (fun f hf' => (hf f hf').2.1)
  obtain ⟨hlen, hnew⟩ := new_ok h1 (fun f hf' => (hf f hf').1) rs.flatten
  refine ⟨_, hnew, ?_⟩
  have : w.fields.map seen = w.fields.map (fun f => { f with name := f.name.take 10 }) := by
    refine List.map_congr_left fun f hf' => ?_
    obtain ⟨a, -, b, c, e⟩ := hf f hf'
    exact seen_plain a c e
  simp only [this]

theorem drop_one {before after : List Field} {f : Field} (hb : ∀ g ∈ before, g.deletes = false) (ha : ∀ g ∈ after, g.deletes = false)
    (hf : f.deletes = true) (fuel i : Nat) (hi : i ≤ before.length) (hfuel : before.length + 1 ≤ fuel + i) :
    dropDeletion fuel i (before ++ f :: after) = before ++ after := by
  have hnot : f ∉ before := fun hm => by rw [hb f hm] at hf; cases hf
  induction fuel generalizing i with
  | zero => omega
  | succ fuel ih =>
    rcases Nat.lt_or_ge i before.length with h | h
    · have hg : (before ++ f :: after)[i]? = some before[i] := by
        rw [List.getElem?_append_left h, List.getElem?_eq_getElem h]
      simp only [dropDeletion, hg, hb _ (List.getElem_mem h), Bool.false_eq_true, if_false]
      exact ih (i + 1) h (by omega)
    · have : i = before.length := by omega
      subst this
      have hg : (before ++ f :: after)[before.length]? = some f := by simp
      simp only [dropDeletion, hg, hf, if_true, List.erase_append_right _ hnot, List.erase_cons_head]
      refine dropDeletion_id ?_ _ _
      intro g hg
      rcases List.mem_append.mp hg with hg | hg
      · exact hb g hg
      · exact ha g hg

/-- C100 fails for fields with names that begin with `Deletion`, wherever they are: the file is the one of a writer that has not got the field but the
same values, so it has no such field, and the values of the later fields stand in the wrong ones. -/
theorem C100_violated_deletion {w : Writer} {before after : List Field} {f : Field} (hw : w.fields = before ++ f :: after) {rest : Str}
    (hf : f.name = ['D', 'e', 'l', 'e', 't', 'i', 'o', 'n'] ++ rest)
    (ho : ∀ g ∈ before ++ after, Ascii g.name ∧ g.deletes = false ∧ g.name.length ≤ 10 ∧ (∀ c ∈ g.name, c ≠ ' ' ∧ c.toNat ≠ 0) ∧ lstrip g.name = g.name) (y m d : Int) :
    (w.saveDbf y m d).map Prod.snd = (Writer.saveDbf { fields := before ++ after, records := w.records } y m d).map Prod.snd ∧
    ∀ w' data, w.saveDbf y m d = .ok (w', data) → ∃ r, Reader.new data = .ok r ∧ r.fields = deletionField :: (before ++ after) := by
  have hdel : f.deletes = true := by
    simp only [Field.deletes, hf, deletion]
    exact List.isPrefixOf_iff_prefix.mpr ⟨rest, rfl⟩
  have hd : dropDeletion w.fields.length 0 w.fields = before ++ after := by
    rw [hw]
    exact drop_one (fun g hg => (ho g (by simp [hg])).2.1) (fun g hg => (ho g (by simp [hg])).2.1) hdel _ 0 (by omega) (by simp)
  have hd' : dropDeletion (before ++ after).length 0 (before ++ after) = before ++ after := dropDeletion_id (fun g hg => (ho g hg).2.1) _ _
  have heq : (w.saveDbf y m d).map Prod.snd = (Writer.saveDbf { fields := before ++ after, records := w.records } y m d).map Prod.snd := by
    simp only [Writer.saveDbf, hd, hd']
  refine ⟨heq, fun w' data h => ?_⟩
  rw [h] at heq
  match h2 : Writer.saveDbf { fields := before ++ after, records := w.records } y m d, heq with
  | .ok (w2, data2), heq =>
    cases (Except.ok.inj heq : data = data2)
    obtain ⟨r, h3, h4, -⟩ := C100_fields_back_partial h2 ho
    exact ⟨r, h3, h4⟩

/-- A field `DeletionBy`: it vanishes, and its value is that of the next field. -/
example : (do
    let w : Writer := { fields := [exampleField 5, { exampleField 5 with name := deletion ++ ['B', 'y'] }, { exampleField 5 with name := ['n'] }], records := [[.text ['x'], .text ['y'], .text ['z']]] }
    let (_, data) ← w.saveDbf 126 11 16
    let r ← Reader.new data
    return (r.fields.map Field.name, (← r.records (fun _ => (.ok 0 : Py Nat))).2)) =
      .ok ([deletionField.name, ['a', 'b'], ['n']], [[.text ['x'], .text ['y']]]) := by
  decide +kernel

/-- C100 fails for spaces: they become underscores. -/
theorem C100_violated_space : (do
    let (_, data) ← Writer.saveDbf { fields := [{ name := ['a', ' ', 'b'], type := ['C'], size := 5, deci := 0 }] } 126 11 16
    let r ← Reader.new data
    return r.fields) = .ok [deletionField, { name := ['a', '_', 'b'], type := ['C'], size := 5, deci := 0 }] := by
  decide +kernel

example : (do
    let (_, data) ← Writer.saveDbf { fields := [exampleField 5, { name := ['p', 'o', 'p', 'u', 'l', 'a', 't', 'i', 'o', 'n', '1'], type := ['N'], size := 4, deci := 0 }] } 126 11 16
    let r ← Reader.new data
    return r.fields.map Field.name) = .ok [deletionField.name, ['a', 'b'], ['p', 'o', 'p', 'u', 'l', 'a', 't', 'i', 'o', 'n']] := by
  decide +kernel

end Dbf
end Coral
