import Verif.Model.RecordWith
import Verif.Props.Dbf

/-!
# Adding records (C143)
-/
namespace Coral
namespace Dbf

set_option linter.unusedSectionVars false

open Shapefile (ok_bind)

/-! ### C143 -/

/-- C143: `record(*values)` adds a record of the first values, one for each field, and changes nothing else; with too few values it raises
`IndexError`. -/
theorem C143_values {w : Writer} (hne : w.fields ≠ []) (hk : ∀ f ∈ w.fields, f.deletes = false) (values : List Attr) :
    (w.fields.length ≤ values.length → ∃ row rest, values = row ++ rest ∧ row.length = w.fields.length ∧
      w.record values = .ok { w with records := w.records ++ [row] }) ∧
    (values.length < w.fields.length → w.record values = .error .indexError) := by
  match hf : w.fields, hne with
  | f :: fs, _ =>
    have hd : f.deletes = false := hk f (by rw [hf]; simp)
    constructor
    · intro h
      refine ⟨values.take (fs.length + 1), values.drop (fs.length + 1), (List.take_append_drop _ _).symm, ?_, ?_⟩
      · simp only [List.length_cons] at h ⊢; rw [List.length_take]; omega
      · simp only [List.length_cons] at h
        have hne' : values.take (fs.length + 1) ≠ [] := by
          intro he
          have := congrArg List.length he
          simp at this
          subst this
          simp at h
        simp only [Writer.record, hf, hd, Bool.false_eq_true, if_false]
        rw [if_neg (by omega), if_neg hne']
    · intro h
      simp only [List.length_cons] at h
      simp only [Writer.record, hf, hd, Bool.false_eq_true, if_false]
      rw [if_pos (by omega)]

/-- C143: so it does in an editor that has opened a file, where the flag for deleted records comes first. -/
theorem C143_values_editor {w : Writer} {fs : List Field} (hf : w.fields = deletionField :: fs) (hne : fs ≠ []) (values : List Attr) :
    (fs.length ≤ values.length → ∃ row rest, values = row ++ rest ∧ row.length = fs.length ∧
      w.record values = .ok { w with records := w.records ++ [row] }) ∧
    (values.length < fs.length → w.record values = .error .indexError) := by
  have hd : deletionField.deletes = true := by decide
  constructor
  · intro h
    refine ⟨values.take fs.length, values.drop fs.length, (List.take_append_drop _ _).symm, by rw [List.length_take]; omega, ?_⟩
    have hne' : values.take fs.length ≠ [] := by
      intro he
      have := congrArg List.length he
      have hp := List.length_pos_iff.mpr hne
      simp only [List.length_take, List.length_nil] at this
      omega
    simp only [Writer.record, hf, hd, if_true]
    rw [if_neg (by omega), if_neg hne']
  · intro h
    simp only [Writer.record, hf, hd, if_true]
    rw [if_pos (by omega)]

theorem pick_all {fields : List Field} {values : List (Str × Option Attr)} {row : List (Option Attr)}
    (h : List.Forall₂ (fun f v => values.lookup f.name = some v) fields row) :
    pick fields values = row.map (fun v => v.getD (.text [])) := by
  unfold pick
  induction h with
  | nil => rfl
  | cons hx _ ih => rw [List.filterMap_cons, hx]; simpa using ih

/-- C143, what holds: if there is a keyword for every field, `record(**values)` adds a record of their values in the order of the fields, with empty
text for `None`; other keywords are ignored. Missing: records that leave fields out, see below. -/
theorem C143_keywords_partial {w : Writer} (hne : w.fields ≠ []) {values : List (Str × Option Attr)} {row : List (Option Attr)}
    (h : List.Forall₂ (fun f v => values.lookup f.name = some v) w.fields row) :
    w.recordWith values = .ok { w with records := w.records ++ [row.map (fun v => v.getD (.text []))] } := by
  have hp := pick_all h
  match hf : w.fields, hne with
  | f :: fs, _ =>
    rw [hf] at h hp
    have hl := h.length_eq
    have hr : row.map (fun v => v.getD (.text [])) ≠ [] := by
      intro he
      rw [List.map_eq_nil_iff] at he
      subst he
      simp at hl
    simp only [Writer.recordWith, hf, hp]
    rw [if_neg hr]

/-- C143 fails: if a field is left out, the value of the next field takes its place (and those of all later fields move along). -/
theorem C143_keywords_violated {w : Writer} {f g : Field} {before after : List Field} (hf : w.fields = before ++ f :: g :: after)
    {values : List (Str × Option Attr)} {row row' : List (Option Attr)} {v : Attr}
    (hb : List.Forall₂ (fun f v => values.lookup f.name = some v) before row) (h0 : values.lookup f.name = none)
    (hg : values.lookup g.name = some (some v)) (ha : List.Forall₂ (fun f v => values.lookup f.name = some v) after row') :
    ∃ r : List Attr, w.recordWith values = .ok { w with records := w.records ++ [r] } ∧ r[before.length]? = some v ∧
      w.fields[before.length]? = some f ∧ r.length + 1 = w.fields.length := by
  have hp : pick w.fields values = row.map (fun v => v.getD (.text [])) ++ v :: row'.map (fun v => v.getD (.text [])) := by
    have h1 := pick_all hb
    have h2 := pick_all ha
    unfold pick at *
    rw [hf, List.filterMap_append, List.filterMap_cons, h0, List.filterMap_cons, hg, h1]
    simp [h2]
  have hl := hb.length_eq
  have hl' := ha.length_eq
  refine ⟨row.map (fun v => v.getD (.text [])) ++ v :: row'.map (fun v => v.getD (.text [])), ?_, ?_, ?_, ?_⟩
  rotate_left
  · rw [List.getElem?_append_right (by simp [hl])]
    simp [hl]
  · rw [hf, List.getElem?_append_right (by omega)]
    simp
  · rw [hf]
    simp [hl, hl']
    omega
  · have hne : w.fields ≠ [] := by rw [hf]; simp
    match hw : w.fields, hne with
    | f' :: fs', _ =>
      rw [hw] at hp
      simp only [Writer.recordWith, hw, hp]
      rw [if_neg (by simp)]

section
variable {F : Type} (pyFloat : List Byte → Py F)

theorem upper_small {c : Char} (h : c.toNat < 128) : (upperChar c).toNat < 128 := by
  unfold upperChar
  split
  · rename_i hc
    have : (c.toNat - 32).isValidChar := Or.inl (by omega)
    have hv : (Char.ofNat (c.toNat - 32)).toNat = c.toNat - 32 := by
      rw [Char.ofNat, dif_pos this]
      rfl
    omega
  · exact h

theorem writeValue_length {f : Field} {v : Attr} (ha : Ascii v.str) {bs : List Byte} (hw : writeValue f v = .ok bs) : bs.length = f.size.toNat := by
  simp only [writeValue, Py.bind_ok] at hw
  obtain ⟨t, ht, u, hass, hw⟩ := hw
  cases hw
  have hsize : (t.length : Int) = f.size := by
    simp only [pyAssert] at hass
    split at hass
    · rename_i hc; simpa using hc
    · cases hass
  have hasc : Ascii t := by
    simp only [layout] at ht
    split at ht
    · cases ht
      exact ascii_append (ascii_blanks _) ha
    · split at ht
      · split at ht
        · rename_i c rest he
          cases ht
          intro d hd
          rw [List.mem_singleton.mp hd]
          exact upper_small (ha c (by rw [he]; simp))
        · cases ht
      · cases ht
        exact ascii_append (fun c hc => ha c (List.mem_of_mem_take hc)) (ascii_blanks _)
  rw [enc_ascii hasc, List.length_map]
  omega

theorem zip_length {fields : List Field} {record : List Attr} (ha : ∀ v ∈ record, Ascii v.str) {vs : List (List Byte)}
    (hw : (fields.zip record).mapM (fun p => writeValue p.1 p.2) = .ok vs) :
    vs.flatten.length = ((fields.take record.length).map (fun f => f.size.toNat)).sum := by
  induction fields generalizing record vs with
  | nil => simp at hw; cases hw; simp
  | cons f fs ih =>
    match record, ha, hw with
    | [], _, hw => simp at hw; cases hw; rfl
    | v :: record, ha, hw =>
      simp only [List.zip_cons_cons, List.mapM_cons, Py.bind_ok] at hw
      obtain ⟨b, hb, vs', hvs, hw⟩ := hw
      cases hw
      have := ih (fun v hv => ha v (by simp [hv])) hvs
      simp [this, writeValue_length (ha v (by simp)) hb]

theorem sum_take {l : List Field} {n : Nat} : ((l.take n).map (fun f => f.size.toNat)).sum ≤ (l.map (fun f => f.size.toNat)).sum := by
  induction l generalizing n with
  | nil => simp
  | cons a l ih =>
    cases n with
    | zero => simp
    | succ n => have := @ih n; simp only [List.take_succ_cons, List.map_cons, List.sum_cons]; omega

theorem sum_take_lt {l : List Field} (hp : ∀ f ∈ l, 0 < f.size) {n : Nat} (hn : n < l.length) :
    ((l.take n).map (fun f => f.size.toNat)).sum < (l.map (fun f => f.size.toNat)).sum := by
  induction l generalizing n with
  | nil => simp at hn
  | cons a l ih =>
    cases n with
    | zero => have := hp a (by simp); simp; omega
    | succ n => have := ih (fun f hf => hp f (by simp [hf])) (n := n) (by simpa using hn); simp only [List.take_succ_cons, List.map_cons, List.sum_cons]; omega

theorem rows_length {fields : List Field} (hne : fields ≠ []) (hk : ∀ f ∈ fields, f.deletes = false) {records : List (List Attr)} {rs : List (List Byte)}
    (ha : ∀ row ∈ records, ∀ v ∈ row, Ascii v.str)
    (hw : List.Forall₂ (fun x y => writeRecord fields x = .ok y) records rs) :
    rs.flatten.length = (records.map (fun row => 1 + ((fields.take row.length).map (fun f => f.size.toNat)).sum)).sum := by
  induction hw with
  | nil => rfl
  | cons hx _ ih =>
    simp only [writeRecord, Py.bind_ok] at hx
    obtain ⟨flag, hflag, vs, hvs, hx⟩ := hx
    cases hx
    have hfl : flag = [32] := by
      match fields, hne, hk with
      | f :: fs, _, hk =>
        simp only [writeFlag, hk f (by simp)] at hflag
        exact (Except.ok.inj hflag).symm
    subst hfl
    have h1 := zip_length (ha _ (by simp)) hvs
    have h2 := ih (fun row hr => ha row (by simp [hr]))
    rw [List.flatten_cons, List.length_append, h2, List.length_append, h1]
    simp

/-- C143 fails: a file with a record that leaves out a field can be saved, but its records cannot be read: it is too short. -/
theorem C143_file_violated {w w' : Writer} {y m d : Int} {data : List Byte} (h : w.saveDbf y m d = .ok (w', data))
    (hf : ∀ f ∈ w.fields, Ascii f.name ∧ f.deletes = false ∧ 0 < f.size) (ha : ∀ row ∈ w.records, ∀ v ∈ row, Ascii v.str)
    (hs : ∃ row ∈ w.records, row.length < w.fields.length) :
    ∃ r, Reader.new data = .ok r ∧ ∀ res, r.records pyFloat ≠ .ok res := by
  obtain ⟨hd, rs, -, h1, h2, rfl⟩ := saveDbf_ok h (fun f hf' => (hf f hf').2.1)
  obtain ⟨hlen, hnew⟩ := new_ok h1 (fun f hf' => (hf f hf').1) rs.flatten
  refine ⟨_, hnew, fun res hres => ?_⟩
  rw [Py.mapM_ok] at h2
  obtain ⟨short, hshort, hsl⟩ := hs
  have hfne : w.fields ≠ [] := by intro he; simp [he] at hsl
  have hl := rows_length hfne (fun f hf' => (hf f hf').2.1) ha h2
  generalize hS : (w.fields.map (fun f => f.size.toNat)).sum = S at *
  have hn : w.records.length ≠ 0 := by
    have := List.length_pos_of_mem hshort
    omega
  have hlt : rs.flatten.length < w.records.length * (1 + S) := by
    rw [hl]
    have hle : ∀ recs : List (List Attr), (recs.map (fun row => 1 + ((w.fields.take row.length).map (fun f => f.size.toNat)).sum)).sum ≤ recs.length * (1 + S) := by
      intro recs
      induction recs with
      | nil => simp
      | cons a recs ih =>
        have := @sum_take w.fields a.length
        simp only [List.map_cons, List.sum_cons, List.length_cons, Nat.add_mul]
        omega
    obtain ⟨p, q, hpq⟩ := List.append_of_mem hshort
    have h3 := hle p
    have h4 := hle q
    have h5 := sum_take_lt (fun f hf' => (hf f hf').2.2) hsl
    rw [hS] at h5
    rw [hpq]
    simp only [List.map_append, List.sum_append, List.map_cons, List.sum_cons, List.length_append, List.length_cons, Nat.add_mul]
    omega
  have hh : hd.length ≠ 0 := by omega
  simp only [Reader.records, Reader.again, Reader.length, if_neg hn, if_neg hh, ok_bind] at hres
  obtain ⟨r', xs⟩ := res
  obtain ⟨os, ho, -, -, hall⟩ := loop_ok pyFloat (by exact hn) hres
  obtain ⟨k, hk⟩ : ∃ k, w.records.length = k + 1 := ⟨w.records.length - 1, by omega⟩
  have hsz : ∀ r : Reader, r.fields = deletionField :: w.fields.map seen → r.recSize = 1 + S := by
    intro r hr
    simp only [Reader.recSize, hr, List.map_cons, List.sum_cons, List.map_map, ← hS]
    congr 2
  have hk' : k < os.length := by omega
  have hlast := hall k os[k] (List.getElem?_eq_getElem hk')
  rw [next_eq pyFloat (by exact hn)] at hlast
  dsimp only at hlast
  split at hlast
  · rename_i hc
    rw [hk, Nat.succ_mul] at hlt
    have hsz' : ∀ p, Reader.recSize { data := hd ++ rs.flatten, pos := p, numRecords := w.records.length, headerLength := hd.length, fields := deletionField :: w.fields.map seen } = 1 + S := fun p => hsz _ rfl
    simp only [hsz', List.length_take, List.length_drop, List.length_append] at hc
    omega
  · cases hlast

end

/-- Two fields: a record that leaves out the first has the value of the second in its place, and the file cannot be read. -/
example : (do
    let w : Writer := { fields := [exampleField 3, { name := ['n'], type := ['C'], size := 3, deci := 0 }] }
    let w ← w.recordWith [(['n'], some (.text ['x']))]
    return w.records) = .ok [[.text ['x']]] ∧
  (do
    let w : Writer := { fields := [exampleField 3, { name := ['n'], type := ['C'], size := 3, deci := 0 }] }
    let w ← w.recordWith [(['n'], some (.text ['x']))]
    let (_, data) ← w.saveDbf 126 11 16
    let r ← Reader.new data
    return (← r.records (fun _ => (.ok 0 : Py Nat))).2) = .error .structError ∧
  (do
    let w : Writer := { fields := [exampleField 3, { name := ['n'], type := ['C'], size := 3, deci := 0 }] }
    let w ← w.recordWith [(['n'], some (.text ['x'])), (['a', 'b'], none)]
    let w ← w.record [.text ['1'], .text ['2'], .text ['3']]
    return w.records) = .ok [[.text [], .text ['x']], [.text ['1'], .text ['2']]] := by
  refine ⟨?_, ?_, ?_⟩ <;> decide +kernel

end Dbf
end Coral
