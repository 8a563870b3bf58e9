import Verif.Props.Dbf
import Verif.Model.EditDbf

/-!
# Editing the attribute file (C140)
-/
namespace Coral
namespace Dbf

set_option linter.unusedSectionVars false

open Shapefile (ok_bind)

section
variable {F : Type} (pyFloat : List Byte → Py F) (floatStr : F → Str)

/-! ### C140 -/

theorem loop_fields {n : Nat} {r r' : Reader} {xs : List (List (Value F))} (hn : r.numRecords ≠ 0) (h : Reader.loop pyFloat n r = .ok (r', xs)) :
    r'.fields = r.fields := by
  induction n generalizing r xs with
  | zero => cases h; rfl
  | succ n ih =>
    simp only [Reader.loop, Py.bind_ok] at h
    obtain ⟨⟨r1, x⟩, h1, ⟨r2, xs'⟩, h2, h⟩ := h
    cases h
    simp only [Reader.next, Reader.again, if_neg hn, ok_bind] at h1
    have hq : (r.read r.recSize).2.fields = r.fields ∧ (r.read r.recSize).2.numRecords = r.numRecords := ⟨rfl, rfl⟩
    generalize r.read r.recSize = q at h1 hq
    split at h1
    · obtain ⟨v, -, h1⟩ := Py.bind_ok.mp h1
      cases h1
      exact (ih (by rw [hq.2]; exact hn) h2).trans hq.1
    · cases h1

theorem records_fields {r r' : Reader} {xs : List (List (Value F))} (hn : r.numRecords ≠ 0) (hh : r.headerLength ≠ 0)
    (h : r.records pyFloat = .ok (r', xs)) : r'.fields = r.fields := by
  simp only [Reader.records, Reader.again, Reader.length, if_neg hn, if_neg hh, ok_bind] at h
  exact loop_fields pyFloat (r := { r with pos := r.headerLength }) hn h

theorem drop_first {fields : List Field} (h : ∀ f ∈ fields, f.deletes = false) (n : Nat) : dropDeletion (n + 1) 0 (deletionField :: fields) = fields := by
  have hd : deletionField.deletes = true := by decide
  simp only [dropDeletion, List.getElem?_cons_zero, hd, if_true, List.erase_cons_head, dropDeletion_id h]

theorem row_attr {fs : List Field} {vs : List Attr} {outs : List (Value F)} (h : Row fs vs outs) : outs.map (Value.attr floatStr) = vs := by
  induction h with
  | nil => rfl
  | cons hf _ ih =>
    rw [List.map_cons, ih]
    cases hf <;> rfl

/-- C140, what holds: if every value fits its field (see C88) and the names of the fields come back (see C100), an editor that opens a saved file
has the fields and the records that were saved, and saving it, whenever that is, gives the bytes that saving the writer itself would give. Missing:
blank values, see below. -/
theorem C140_reopened_partial {w w' : Writer} {y m d : Int} {data : List Byte} (h : w.saveDbf y m d = .ok (w', data))
    (hf : ∀ f ∈ w.fields, Ascii f.name ∧ f.deletes = false ∧ f.name.length ≤ 10 ∧ (∀ c ∈ f.name, c ≠ ' ' ∧ c.toNat ≠ 0) ∧ lstrip f.name = f.name)
    (hne : w.records ≠ []) {outs : List (List (Value F))} (hrow : List.Forall₂ (Row w.fields) w.records outs) :
    ∃ e, edit pyFloat floatStr data = .ok e ∧ e.fields = deletionField :: w.fields ∧ e.records = w.records ∧
      ∀ y' m' d', (e.saveDbf y' m' d').map Prod.snd = (w.saveDbf y' m' d').map Prod.snd := by
  obtain ⟨r, hr, hrec⟩ := C88_records_back_partial pyFloat h (fun f hf' => ⟨(hf f hf').1, (hf f hf').2.1⟩) hne hrow
  obtain ⟨r1, hr1, hfields, hnum⟩ := C100_fields_back_partial h hf
  rw [hr] at hr1
  cases hr1
  obtain ⟨r', hrec⟩ := hrec r.pos
  have hn : r.numRecords ≠ 0 := by
    rw [hnum]
    simpa using hne
  have hh : r.headerLength ≠ 0 := by
    obtain ⟨hd, rs, -, h1, -, rfl⟩ := saveDbf_ok h (fun f hf' => (hf f hf').2.1)
    obtain ⟨hlen, hnew⟩ := new_ok h1 (fun f hf' => (hf f hf').1) rs.flatten
    rw [hr] at hnew
    cases hnew
    dsimp only
    omega
  have hrf := records_fields pyFloat (r := r) hn hh hrec
  have hout : outs.map (fun row => row.map (Value.attr floatStr)) = w.records := by
    clear * - hrow
    generalize w.records = recs at hrow
    induction hrow with
    | nil => rfl
    | cons h1 _ ih => rw [List.map_cons, ih, row_attr floatStr h1]
  refine ⟨{ fields := r'.fields, records := w.records }, ?_, hrf.trans hfields, rfl, ?_⟩
  · have hrec' : r.records pyFloat = .ok (r', outs) := hrec
    simp only [edit, hr, ok_bind, hrec', hout]
    rfl
  · intro y' m' d'
    have hk : ∀ f ∈ w.fields, f.deletes = false := fun f hf' => (hf f hf').2.1
    simp only [Writer.saveDbf, hrf.trans hfields, List.length_cons, drop_first hk, dropDeletion_id hk]

/-- C140 fails for blank values: a field that is empty is the text `b'` after opening the file in an editor and saving it. -/
theorem C140_violated {f : Field} (hok : FieldOk f) (ht : Textual f) (hs : 2 ≤ f.size)
    (hname : f.name.length ≤ 10 ∧ (∀ c ∈ f.name, c ≠ ' ' ∧ c.toNat ≠ 0) ∧ lstrip f.name = f.name) {y m d : Int} {data : List Byte} {w' : Writer}
    (h : Writer.saveDbf { fields := [f], records := [[.text []]] } y m d = .ok (w', data)) :
    ∃ (e e' : Writer) (data' : List Byte) (r r' : Reader), edit pyFloat floatStr data = .ok e ∧ e.saveDbf y m d = .ok (e', data') ∧ Reader.new data' = .ok r ∧
      r.records pyFloat = .ok (r', [[.text ['b', '\'']]]) := by
  obtain ⟨r, r', hr, hrec⟩ := C88_violated_blank pyFloat hok h
  have hf : ∀ g ∈ [f], Ascii g.name ∧ g.deletes = false ∧ g.name.length ≤ 10 ∧ (∀ c ∈ g.name, c ≠ ' ' ∧ c.toNat ≠ 0) ∧ lstrip g.name = g.name := by
    intro g hg
    rw [List.mem_singleton.mp hg]
    exact ⟨hok.name, hok.kept, hname⟩
  obtain ⟨r1, hr1, hfields, hnum⟩ := C100_fields_back_partial h hf
  rw [hr] at hr1
  cases hr1
  have hh : r.headerLength ≠ 0 := by
    obtain ⟨hd, rs, -, h1, -, rfl⟩ := saveDbf_ok h (fun g hg => (hf g hg).2.1)
    obtain ⟨hlen, hnew⟩ := new_ok h1 (fun g hg => (hf g hg).1) rs.flatten
    rw [hr] at hnew
    cases hnew
    dsimp only
    omega
  have hrf := records_fields pyFloat (r := r) (by rw [hnum]; simp) hh hrec
  have hk : ∀ g ∈ [f], g.deletes = false := fun g hg => (hf g hg).2.1
  have hrow : List.Forall₂ (Row (F := F) [f]) [[.text ['b', '\'']]] [[.text ['b', '\'']]] :=
    .cons (.cons (.text ht (by simp) (by intro c hc; simp at hc; rcases hc with rfl | rfl <;> decide) (by simp [NoOuterSpace]; decide) (by simpa using hs)) .nil) .nil
  -- the values are written alike
  have hval : writeValue f (.text (reprBlank (List.replicate f.size.toNat 32))) = writeValue f (.text ['b', '\'']) := by
    obtain ⟨c, hc, hc1, hc2, hc3, hc4⟩ := ht
    have hN : f.type.map upperChar ≠ ['N'] := by
      intro hh
      rw [hc] at hh
      rcases upper_eq (by decide) (List.cons.inj hh).1 with h | h
      · exact hc1 h
      · exact hc2 (char_eq h)
    have hL : f.type.map upperChar ≠ ['L'] := by
      intro hh
      rw [hc] at hh
      rcases upper_eq (by decide) (List.cons.inj hh).1 with h | h
      · exact hc3 h
      · exact hc4 (char_eq h)
    obtain ⟨k, hk⟩ : ∃ k, f.size.toNat = k + 2 := ⟨f.size.toNat - 2, by omega⟩
    have hsp : (List.replicate (k + 2) 32).flatMap reprSpace = List.replicate (k + 2) ' ' := by
      generalize k + 2 = n
      induction n with
      | zero => rfl
      | succ n ih => rw [List.replicate_succ, List.flatMap_cons, ih]; rfl
    have e : layout f (reprBlank (List.replicate f.size.toNat 32)) = layout f ['b', '\''] := by
      simp only [layout, if_neg hN, if_neg hL]
      congr 1
      rw [hk, reprBlank, hsp]
      have e1 : (['b', '\''] ++ List.replicate (k + 2) ' ' ++ ['\'']).take (k + 2) = ['b', '\''] ++ List.replicate k ' ' := by
        rw [List.append_assoc, List.take_append]
        simp only [List.length_cons, List.length_nil]
        rw [List.take_of_length_le (by simp), List.take_append_of_le_length (by simp), List.take_replicate]
        congr 2
        omega
      rw [e1]
      have e2 : (['b', '\''] : Str).take (k + 2) = ['b', '\''] := List.take_of_length_le (by simp)
      rw [e2]
      simp [ljust]
    simp only [writeValue, Attr.str, e]
  have hwrec : writeRecord [f] [.text (reprBlank (List.replicate f.size.toNat 32))] = writeRecord [f] [.text ['b', '\'']] := by
    simp only [writeRecord, List.zip_cons_cons, List.zip_nil_right, List.mapM_cons, List.mapM_nil, hval]
  -- saving what is written works
  obtain ⟨hd, rs, -, h1, -, -⟩ := saveDbf_ok h hk
  have hw1 : ∃ b, writeRecord [f] [.text ['b', '\'']] = .ok b := by
    obtain ⟨data1, hd1⟩ := C88_saving_works (w := { fields := [f], records := [[.text ['b', '\'']]] }) (y := 0) (m := 0) (d := 0) (by omega) (by omega)
      (by omega) (by intro g hg; rw [List.mem_singleton.mp hg]; exact hok) (by simp) (by simp) (by have := hok.size; simp; omega) (by simp) hrow
    obtain ⟨_, rs1, -, -, h2, -⟩ := saveDbf_ok hd1 hk
    simp only [List.mapM_cons, Py.bind_ok] at h2
    obtain ⟨b, hb, -⟩ := h2
    exact ⟨b, hb⟩
  obtain ⟨b, hb⟩ := hw1
  have hsave : Writer.saveDbf { fields := [f], records := [[.text ['b', '\'']]] } y m d = .ok ({ fields := [f], records := [[.text ['b', '\'']]] }, hd ++ b) := by
    have h1' : header y m d [f] [[Attr.text ['b', '\'']]].length = .ok hd := h1
    simp only [Writer.saveDbf, dropDeletion_id hk, h1', ok_bind, List.mapM_cons, List.mapM_nil, hb, pure, Except.pure]
    simp
  obtain ⟨r2, hr2, hback⟩ := C88_records_back_partial pyFloat hsave (fun g hg => ⟨(hf g hg).1, (hf g hg).2.1⟩) (by simp) hrow
  obtain ⟨r3, hback⟩ := hback r2.pos
  refine ⟨{ fields := deletionField :: [f], records := [[.text (reprBlank (List.replicate f.size.toNat 32))]] },
    { fields := [f], records := [[.text (reprBlank (List.replicate f.size.toNat 32))]] }, hd ++ b, r2, r3, ?_, ?_, hr2, hback⟩
  · simp only [edit, hr, ok_bind, hrec, hrf.trans hfields]
    rfl
  · have h1' : header y m d [f] (0 + 1) = .ok hd := h1
    simp only [Writer.saveDbf, List.length_cons, List.length_nil, drop_first hk, h1', ok_bind, List.mapM_cons, List.mapM_nil, hwrec, hb, pure, Except.pure]
    simp

/-- A field of eight characters and a number: nothing changes; an empty text does. -/
example : (do
    let (_, data) ← Writer.saveDbf { fields := [exampleField 8, { name := ['n'], type := ['N'], size := 4, deci := 0 }], records := [[.text ['x', 'y'], .int (-12)], [.text ['z'], .int 7]] } 126 11 16
    let e ← edit (fun _ => (.ok 0 : Py Nat)) (fun _ => []) data
    let (_, data') ← e.saveDbf 126 11 16
    return decide (data' = data)) = .ok true ∧
  (do
    let (_, data) ← Writer.saveDbf { fields := [exampleField 8], records := [[.text []]] } 126 11 16
    let e ← edit (fun _ => (.ok 0 : Py Nat)) (fun _ => []) data
    let (_, data') ← e.saveDbf 126 11 16
    let r ← Reader.new data'
    return (← r.records (fun _ => (.ok 0 : Py Nat))).2) = .ok [[.text ['b', '\'']]] := by
  constructor <;> decide +kernel

end

end Dbf
end Coral
