import Verif.Props.Dbf

/-!
# C171: which records of an attribute file are given, whoever wrote it
-/
namespace Coral
namespace Dbf

open Shapefile (ok_bind)

section
variable {F : Type} (pyFloat : List Byte → Py F)

theorem read_data {r r' : Reader} {n : Nat} {bs : List Byte} (h : r.read n = (bs, r')) :
    r'.data = r.data ∧ r'.pos = r.pos + bs.length ∧ r'.numRecords = r.numRecords ∧ r'.headerLength = r.headerLength ∧ r'.fields = r.fields ∧
      bs = (r.data.drop r.pos).take n := by
  simp only [Reader.read, Prod.mk.injEq] at h
  obtain ⟨rfl, rfl⟩ := h
  exact ⟨rfl, rfl, rfl, rfl, rfl, rfl⟩

theorem readFields_place {n : Nat} {r r' : Reader} {fs : List Field} (h : Reader.readFields n r = .ok (fs, r')) :
    r' = { r with pos := r.pos + 32 * n } ∧ fs.length = n := by
  induction n generalizing r fs with
  | zero => cases h; exact ⟨rfl, rfl⟩
  | succ n ih =>
    obtain ⟨⟨f, r1⟩, h1, h⟩ := Py.bind_ok.mp h
    obtain ⟨⟨fs', r2⟩, h2, h⟩ := Py.bind_ok.mp h
    cases h
    obtain ⟨rfl, hl⟩ := ih h2
    simp only [Reader.readField] at h1
    split at h1
    · rename_i hb
      simp only [Py.bind_ok] at h1
      obtain ⟨nm, -, ty, -, h1⟩ := h1
      cases h1
      refine ⟨?_, by simp [hl]⟩
      simp only [Reader.read] at hb ⊢
      rw [hb]
      congr 1
      omega
    · cases h1

/-- What opening a file gives. -/
theorem opened_ok {data : List Byte} {r : Reader} (h : Reader.new data = .ok r) :
    r.data = data ∧ 32 ≤ data.length ∧ r.numRecords = leVal ((data.drop 4).take 4) ∧ r.headerLength = leVal ((data.drop 8).take 2) ∧
      (∃ fs, r.fields = deletionField :: fs ∧ fs.length = (((r.headerLength : Int) - 33) / 32).toNat) ∧
      data[32 + 32 * (((r.headerLength : Int) - 33) / 32).toNat]? = some 13 := by
  simp only [Reader.new, Reader.header, Py.bind_ok] at h
  obtain ⟨r1, h1, ⟨fs, r2⟩, h2, h⟩ := h
  simp only [Reader.length, if_true, Reader.read] at h1
  by_cases hb : (List.take 32 (List.drop 0 data)).length = 32
  · simp only [hb, if_true] at h1
    cases h1
    obtain ⟨rfl, hl⟩ := readFields_place h2
    dsimp only [Reader.read] at h
    obtain ⟨u, ha, h⟩ := h
    cases h
    simp only [List.drop_zero] at hb ⊢
    have h32 : 32 ≤ data.length := by rw [List.length_take] at hb; omega
    have e4 : ((data.take 32).drop 4).take 4 = (data.drop 4).take 4 := by rw [List.drop_take, List.take_take]; rfl
    have e8 : ((data.take 32).drop 8).take 2 = (data.drop 8).take 2 := by rw [List.drop_take, List.take_take]; rfl
    refine ⟨by trivial, h32, by rw [e4], by rw [e8], ⟨fs, by simp, hl⟩, ?_⟩
    simp only [pyAssert] at ha
    split at ha
    · rename_i ht
      simp only [List.drop_zero, decide_eq_true_eq] at ht
      generalize (((leVal (((data.take 32).drop 8).take 2) : Int) - 33) / 32).toNat = k at ht ⊢
      rw [Nat.zero_add] at ht
      have : ((data.drop (32 + 32 * k)).take 1)[0]? = some 13 := by rw [ht]; rfl
      rw [List.getElem?_take_of_lt (by omega), List.getElem?_drop] at this
      exact this
    · cases ha
  · simp only [hb, if_false] at h1
    cases h1

/-- C171: a file whose field descriptors are not ended by a carriage return where the header says they end is refused. -/
theorem C171_terminator {data : List Byte} {r : Reader} (h : Reader.new data = .ok r) :
    data[32 + 32 * (((leVal ((data.drop 8).take 2) : Int) - 33) / 32).toNat]? = some 13 := by
  obtain ⟨-, -, -, hh, -, ht⟩ := opened_ok h
  rwa [hh] at ht

/-- Whether the `i`-th record is marked as valid: the byte it begins with is a blank. -/
def Live (data : List Byte) (start size i : Nat) : Prop := data[start + i * size]? = some 32

instance (data : List Byte) (start size i : Nat) : Decidable (Live data start size i) := by unfold Live; infer_instance

theorem parse_flag {fs : List Field} {bs : List Byte} {x : Option (List (Value F))} (hl : 1 ≤ bs.length)
    (h : parse pyFloat (deletionField :: fs) bs = .ok x) : (x = none ↔ bs[0]? ≠ some 32) ∧
      ∀ row, x = some row → parseValues pyFloat fs (chunks (fs.map (fun f => f.size.toNat)) (bs.drop 1)) = .ok row := by
  have e : (chunks ((deletionField :: fs).map (fun f => f.size.toNat)) bs).head? = some (bs.take 1) := rfl
  match bs, hl, h, e with
  | b :: bs, _, h, e =>
    simp only [parse, e] at h
    have e1 : (some ((b :: bs).take 1) ≠ some [32]) ↔ b ≠ 32 := by simp
    by_cases hb : b = 32
    · rw [if_neg (by rw [e1]; simpa using hb)] at h
      obtain ⟨row, h1, h2⟩ := Py.bind_ok.mp h
      cases h2
      refine ⟨by simp [hb], ?_⟩
      intro row' hr
      cases hr
      simp only [List.map_cons, chunks] at h1
      rw [parseValues, if_pos rfl] at h1
      exact h1
    · rw [if_pos (e1.mpr hb)] at h
      cases h
      simp [hb]

theorem record_place {data : List Byte} {r : Reader} (h : Reader.new data = .ok r) (hn : r.numRecords ≠ 0) (hh : r.headerLength ≠ 0) {i : Nat}
    (hi : i < r.numRecords) {r1 : Reader} {x : Option (List (Value F))} (hx : r.record pyFloat i = .ok (r1, x)) :
    ∃ fs, r.fields = deletionField :: fs ∧ (x = none ↔ ¬ Live data r.headerLength r.recSize i) ∧ ∀ row, x = some row →
      parseValues pyFloat fs (chunks (fs.map (fun f => f.size.toNat)) ((data.drop (r.headerLength + i * r.recSize + 1)).take (r.recSize - 1))) = .ok row := by
  obtain ⟨hd, -, -, -, ⟨fs, hfs, -⟩, -⟩ := opened_ok h
  have hidx := (Shapefile.C90_indices_partial r.numRecords (by omega) i).1 (by omega)
  rw [if_neg (by omega)] at hidx
  rw [record_eq pyFloat hn hh hidx (by omega), Int.toNat_natCast, next_eq pyFloat (r := { r with pos := r.headerLength + i * r.recSize }) hn] at hx
  have hsz : 1 ≤ r.recSize := by simp [Reader.recSize, hfs, deletionField]
  have esz : Reader.recSize { r with pos := r.headerLength + i * r.recSize } = r.recSize := rfl
  dsimp only at hx
  rw [esz, hd] at hx
  split at hx
  · rename_i hb
    obtain ⟨y, hy, hx⟩ := Py.bind_ok.mp hx
    cases hx
    rw [hfs] at hy
    obtain ⟨h1, h2⟩ := parse_flag pyFloat (by rw [hb]; exact hsz) hy
    refine ⟨fs, hfs, ?_, ?_⟩
    · rw [h1, Live, List.getElem?_take_of_lt (by omega), List.getElem?_drop, Nat.add_zero]
    · intro row hrow
      have := h2 row hrow
      rwa [List.drop_take, List.drop_drop] at this
  · cases hx

/-- C171: `record(i)` is `None` exactly if the `i`-th record does not begin with a blank, and otherwise has the values of its bytes, whatever the
other records are. -/
theorem C171_deleted {data : List Byte} {r : Reader} (h : Reader.new data = .ok r) (hn : r.numRecords ≠ 0) (hh : r.headerLength ≠ 0) {i : Nat}
    (hi : i < r.numRecords) {r1 : Reader} {x : Option (List (Value F))} (hx : r.record pyFloat i = .ok (r1, x)) :
    x = none ↔ ¬ Live data r.headerLength r.recSize i := by
  obtain ⟨fs, -, h1, -⟩ := record_place pyFloat h hn hh hi hx
  exact h1

theorem chunks_length (ns : List Nat) (bs : List Byte) : (chunks ns bs).length = ns.length := by
  induction ns generalizing bs with
  | nil => rfl
  | cons n ns ih => simp [chunks, ih]

theorem parseValues_ne {fs : List Field} {vs : List (List Byte)} {row : List (Value F)} (h : parseValues pyFloat fs vs = .ok row) (hl : vs.length = fs.length) :
    row.length = (fs.filter (fun f => f.name ≠ deletionField.name)).length := by
  induction fs generalizing vs row with
  | nil => cases vs <;> (cases h; rfl)
  | cons f fs ih =>
    match vs, hl with
    | v :: vs, hl =>
      simp only [List.length_cons, Nat.add_right_cancel_iff] at hl
      rw [parseValues] at h
      split at h
      · rename_i hf
        rw [ih h hl]
        simp [hf]
      · rename_i hf
        obtain ⟨x, -, h⟩ := Py.bind_ok.mp h
        obtain ⟨xs, h2, h⟩ := Py.bind_ok.mp h
        cases h
        simp [hf, ih h2 hl]

/-- C171: every row has one value for each field. -/
theorem C171_width {data : List Byte} {r : Reader} (h : Reader.new data = .ok r) (hn : r.numRecords ≠ 0) (hh : r.headerLength ≠ 0) {i : Nat}
    (hi : i < r.numRecords) {r1 : Reader} {row : List (Value F)} (hx : r.record pyFloat i = .ok (r1, some row)) :
    row.length = (r.fields.filter (fun f => f.name ≠ deletionField.name)).length := by
  obtain ⟨fs, hfs, -, h2⟩ := record_place pyFloat h hn hh hi hx
  rw [parseValues_ne pyFloat (h2 row rfl) (by rw [chunks_length, List.length_map]), hfs]
  simp

/-- C171, what holds: `records()` gives the rows of the records that begin with a blank, all of them and in their order, as `record(i)` gives them.
Missing: files without a field, see below. -/
theorem C171_records_partial {data : List Byte} {r r' : Reader} (h : Reader.new data = .ok r) (hn : r.numRecords ≠ 0) (hh : r.headerLength ≠ 0)
    (hf : ∃ f ∈ r.fields, f.name ≠ deletionField.name) {rs : List (List (Value F))} (hrs : r.records pyFloat = .ok (r', rs)) :
    List.Forall₂ (fun (i : Nat) row => ∃ r1, r.record pyFloat i = .ok (r1, some row))
      ((List.range r.numRecords).filter (fun i => decide (Live data r.headerLength r.recSize i))) rs := by
  obtain ⟨os, hlen, rfl, hos⟩ := records_ok pyFloat hn hh hrs
  have key : ∀ i x, os[i]? = some x → (kept x = x) ∧ (x = none ↔ ¬ Live data r.headerLength r.recSize i) := by
    intro i x hx
    obtain ⟨r1, hr1⟩ := hos i x hx
    have hi : i < r.numRecords := by rw [← hlen]; exact (List.getElem?_eq_some_iff.mp hx).1
    refine ⟨?_, C171_deleted pyFloat h hn hh hi hr1⟩
    match x, hr1 with
    | none, _ => rfl
    | some [], hr1 =>
      have := C171_width pyFloat h hn hh hi hr1
      obtain ⟨f, hf, hne⟩ := hf
      have hm : f ∈ r.fields.filter (fun f => f.name ≠ deletionField.name) := by simp [hf, hne]
      rw [List.length_nil] at this
      rw [List.length_eq_zero_iff.mp this.symm] at hm
      cases hm
    | some (_ :: _), _ => rfl
  have gen : ∀ (k : Nat) (l : List (Option (List (Value F)))), (∀ i x, l[i]? = some x → os[k + i]? = some x) →
      List.Forall₂ (fun (i : Nat) row => ∃ r1, r.record pyFloat i = .ok (r1, some row))
        ((List.range' k l.length).filter (fun i => decide (Live data r.headerLength r.recSize i))) (l.filterMap kept) := by
    intro k l
    induction l generalizing k with
    | nil => intro _; exact .nil
    | cons x l ih =>
      intro hl
      have hx := hl 0 x rfl
      obtain ⟨h1, h2⟩ := key k x (by simpa using hx)
      have hrest := ih (k + 1) (fun i y hy => by have := hl (i + 1) y (by simpa using hy); rwa [show k + 1 + i = k + (i + 1) by omega])
      rw [List.length_cons, List.range'_succ, List.filter_cons, List.filterMap_cons, h1]
      match x, h2 with
      | none, h2 =>
        rw [if_neg (by simpa using h2)]
        exact hrest
      | some row, h2 =>
        have hlive : Live data r.headerLength r.recSize k := by
          by_contra hc
          cases h2.mpr hc
        rw [if_pos (by simpa using hlive)]
        exact .cons (hos k _ (by simpa using hx)) hrest
  have := gen 0 os (fun i x hx => by simpa using hx)
  rwa [hlen, ← List.range_eq_range'] at this

/-- C171 fails for files without fields: `records()` gives nothing though `record(i)` gives a row, which is empty, for every valid record. -/
theorem C171_records_violated {data : List Byte} {r r' : Reader} (h : Reader.new data = .ok r) (hn : r.numRecords ≠ 0) (hh : r.headerLength ≠ 0)
    (hf : ∀ f ∈ r.fields, f.name = deletionField.name) {rs : List (List (Value F))} (hrs : r.records pyFloat = .ok (r', rs)) : rs = [] := by
  obtain ⟨os, hlen, rfl, hos⟩ := records_ok pyFloat hn hh hrs
  rw [List.filterMap_eq_nil_iff]
  intro x hx
  obtain ⟨i, hi, hxi⟩ := List.getElem_of_mem hx
  obtain ⟨r1, hr1⟩ := hos i x (by rw [List.getElem?_eq_getElem hi, hxi])
  match x, hr1 with
  | none, _ => rfl
  | some [], _ => rfl
  | some (v :: vs), hr1 =>
    have := C171_width pyFloat h hn hh (by omega) hr1
    rw [List.filter_eq_nil_iff.mpr (by simpa using hf)] at this
    simp at this

end

/-- A file with one text field of two bytes and four records, of which the second is marked with an asterisk and the third with a zero byte. -/
def deletedFile : List Byte := [3, 126, 11, 16, 4, 0, 0, 0, 65, 0, 3, 0] ++ List.replicate 20 0 ++
  ([65] ++ List.replicate 10 0 ++ [67, 0, 0, 0, 0, 2, 0] ++ List.replicate 14 0) ++ [13] ++
  [32, 97, 97] ++ [42, 98, 98] ++ [0, 99, 99] ++ [32, 100, 100]

example : (do
    let r ← Reader.new deletedFile
    let (_, rows) ← r.records (fun _ => (.ok 0 : Py Nat))
    return (r.numRecords, r.headerLength, r.recSize, rows)) = .ok (4, 65, 3, [[.text ['a', 'a']], [.text ['d', 'd']]]) ∧
    (List.range 4).filter (fun i => decide (Live deletedFile 65 3 i)) = [0, 3] ∧
    (do let _ ← Reader.new (deletedFile.set 64 0); return ()) = .error .assertionError := by
  refine ⟨by decide +kernel, by decide +kernel, by decide +kernel⟩

end Dbf
end Coral
