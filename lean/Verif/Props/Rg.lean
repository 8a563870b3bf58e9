import Verif.Proofs.Rg

/-!
# Properties of `coral/rg.py` (C97–C99, C101)
-/
namespace Coral
namespace Rg

set_option linter.unusedSectionVars false

/-! ### C98 -/

/-- C98: the index file holds the ids and lengths, for ids without spaces and line breaks and entities with at least one segment. -/
theorem C98_index_back {index : List (Str × List Nat)} (h : ∀ e ∈ index, IdOk e.1 ∧ e.2 ≠ []) :
    ∃ l, readIndex (writeIndex index) = .ok l ∧ l.map Prod.fst = index.map Prod.fst ∧ l.map Prod.snd = index.map (fun e => e.2.map (fun (k : Nat) => (k : Int))) := by
  refine ⟨_, readIndex_ok h, ?_, ?_⟩ <;> rw [List.map_map] <;> rfl

theorem readEntries_error {index : List (Str × List Nat)} (h : ∀ e ∈ index, IdOk e.1 ∧ e.2 ≠ []) {s : Str} {err : PyErr} (he : readEntry s = .error err) (k : Nat) :
    readEntries (index.length + (k + 1)) ((index.map writeEntry).flatten ++ s) = .error err := by
  induction index with
  | nil => simp only [List.length_nil, Nat.zero_add, List.map_nil, List.flatten_nil, List.nil_append, readEntries, he]; rfl
  | cons e es ih =>
    obtain ⟨a, b⟩ := h e (by simp)
    have : (e :: es).length + (k + 1) = (es.length + (k + 1)) + 1 := by simp; omega
    rw [this, List.map_cons, List.flatten_cons, List.append_assoc, readEntries, readEntry_ok a b, ok_bind]
    simp only [ih (fun x hx => h x (by simp [hx]))]
    rfl

/-- C98, the limits: one entity without segments makes the whole index unreadable. -/
theorem C98_no_segments {before after : List (Str × List Nat)} {id : Str} (h : ∀ e ∈ before, IdOk e.1 ∧ e.2 ≠ []) (hid : IdOk id) (ha : ∀ e ∈ after, '\r' ∉ e.1) :
    readIndex (writeIndex (before ++ (id, []) :: after)) = .error .valueError := by
  rw [readIndex_start, List.map_append, List.flatten_append, List.length_append, List.length_cons]
  · refine readEntries_error h ?_ _
    have e1 : ((((id, []) :: after).map writeEntry).flatten) = (id ++ ' ' :: decNat 0) ++ '\n' :: ([] ++ '\n' :: (after.map writeEntry).flatten) := by
      simp [writeEntry, pyJoin]
    have h1 : '\n' ∉ id ++ ' ' :: decNat 0 := by
      simp only [List.mem_append, List.mem_cons, not_or]
      exact ⟨hid.2.1, by decide, decNat_not_mem (by decide)⟩
    have h3 : pySplit ' ' ((id ++ ' ' :: decNat 0) ++ ['\n']) = [id, decNat 0 ++ ['\n']] := by
      have : (id ++ ' ' :: decNat 0) ++ ['\n'] = id ++ ' ' :: (decNat 0 ++ ['\n']) := by simp
      rw [this, pySplit_append hid.1, pySplit_of_not_mem]
      simp only [List.mem_append, List.mem_singleton, not_or]
      exact ⟨decNat_not_mem (by decide), by decide⟩
    rw [e1, readEntry, readline_line h1, h3]
    simp only [readline_line (l := []) (by simp), pyIntOf_line, ok_bind]
    rfl
  · intro e he
    rcases List.mem_append.mp he with he | he
    · exact (h e he).1.2.2
    · rcases List.mem_cons.mp he with rfl | he
      · exact hid.2.2
      · exact ha e he

theorem pySplit_length (c : Char) (s : Str) : (pySplit c s).length = s.count c + 1 := by
  induction s with
  | nil => rfl
  | cons x s ih =>
    rw [pySplit]
    split
    · rename_i hx
      rw [List.length_cons, ih, hx, List.count_cons_self]
    · rename_i hx
      rw [List.count_cons_of_ne hx, ← ih]
      cases h : pySplit c s with
      | nil => exact absurd h (pySplit_ne_nil c s)
      | cons a b => rfl

/-- C98, the limits: so does an id with a space. -/
theorem C98_space {before after : List (Str × List Nat)} {e : Str × List Nat} (h : ∀ e ∈ before, IdOk e.1 ∧ e.2 ≠ []) (hs : ' ' ∈ e.1) (hn : '\n' ∉ e.1) (hr : '\r' ∉ e.1)
    (ha : ∀ e ∈ after, '\r' ∉ e.1) : readIndex (writeIndex (before ++ e :: after)) = .error .valueError := by
  rw [readIndex_start, List.map_append, List.flatten_append, List.length_append, List.length_cons]
  · refine readEntries_error h ?_ _
    have e1 : (((e :: after).map writeEntry).flatten) =
        (e.1 ++ ' ' :: decNat e.2.length) ++ '\n' :: (pyJoin ' ' (e.2.map decNat) ++ '\n' :: (after.map writeEntry).flatten) := by
      simp [writeEntry]
    have h1 : '\n' ∉ e.1 ++ ' ' :: decNat e.2.length := by
      simp only [List.mem_append, List.mem_cons, not_or]
      exact ⟨hn, by decide, decNat_not_mem (by decide)⟩
    have hl := pySplit_length ' ' ((e.1 ++ ' ' :: decNat e.2.length) ++ ['\n'])
    have hc : 0 < e.1.count ' ' := List.count_pos_iff.mpr hs
    simp only [List.count_append, List.count_cons_self] at hl
    rw [e1, readEntry, readline_line h1]
    generalize hsp : pySplit ' ' ((e.1 ++ ' ' :: decNat e.2.length) ++ ['\n']) = l at hl ⊢
    match l, hl with
    | [], hl => rfl
    | [_], hl => rfl
    | [_, _], hl => simp at hl; omega
    | _ :: _ :: _ :: _, hl => rfl
  · intro x hx
    rcases List.mem_append.mp hx with hx | hx
    · exact (h x hx).1.2.2
    · rcases List.mem_cons.mp hx with rfl | hx
      · exact hr
      · exact ha x hx

example : readIndex (writeIndex [(['a'], [3, 12]), (['b', 'c'], [0])]) = .ok [(['a'], [3, 12]), (['b', 'c'], [0])] := by decide +kernel

section
variable {K : Type} [Field K] [LinearOrder K] [IsStrictOrderedRing K] [FloorRing K]

/-! ### C97 -/

/-- C97 fails: no data set can be opened, `Reader(path)` never returns, whatever the files. -/
theorem C97_violated (nt : List (List Nat) → Py Unit) (rg : List Byte) (md : Str) (r : Reader K) : Reader.new nt rg md ≠ .ok r := by
  intro h
  simp only [Reader.new, Reader.new', Res.bind_ok] at h
  obtain ⟨_, _, ⟨_, _⟩, _, ⟨_, _⟩, _, h⟩ := h
  cases h

/-- C97 fails: a data set that was written raises `NameError` when it is opened. -/
theorem C97_violated_written {row : List Col} {es : List (Str × List (List (List (GVal K))))} {w : Writer K} (h : Writer.Reaches row es w) {rg : List Byte} {md : Str}
    (hc : w.close = .ok (rg, md)) (h0 : ∀ c ∈ row, ∀ x ∈ c.name, x ≠ 0) (hid : ∀ e ∈ es, IdOk e.1 ∧ e.2 ≠ [])
    {outs : List (List (List (List (GVal K))))} (hb : List.Forall₂ (fun (e : Str × List (List (List (GVal K)))) o => List.Forall₂ (List.Forall₂ (Back w.cols)) e.2 o) es outs)
    (nt : List (List Nat) → Py Unit) : Reader.new (K := K) nt rg md = .raise .nameError := by
  obtain ⟨hd, L, r, -, -, -, h5⟩ := new_at h hc h0 hid hb false nt
  rw [Reader.new, h5]
  rfl

/-- C97, what would hold if the module imported `collections`: the data set opens and `read(id)` returns the first entity with that id, each value
as its column gives it back. Missing: the import; entities without segments and ids with spaces (below). -/
theorem C97_read_back_partial {row : List Col} {es : List (Str × List (List (List (GVal K))))} {w : Writer K} (h : Writer.Reaches row es w) {rg : List Byte} {md : Str}
    (hc : w.close = .ok (rg, md)) (h0 : ∀ c ∈ row, ∀ x ∈ c.name, x ≠ 0) (hid : ∀ e ∈ es, IdOk e.1 ∧ e.2 ≠ [])
    {outs : List (List (List (List (GVal K))))} (hb : List.Forall₂ (fun (e : Str × List (List (List (GVal K)))) o => List.Forall₂ (List.Forall₂ (Back w.cols)) e.2 o) es outs)
    {nt : List (List Nat) → Py Unit} (hnt : nt (row.map Col.name) = .ok ()) :
    ∃ r : Reader K, Reader.new' true nt rg md = .ok r ∧ ∀ (i : Nat) id out, (es.map Prod.fst)[i]? = some id → outs[i]? = some out →
      (∀ j, j < i → (es.map Prod.fst)[j]? ≠ some id) → (r.read (some id)).2 = .ok out := by
  obtain ⟨hd, L, r, h1, h2, h3, h4⟩ := new_at h hc h0 hid hb true nt
  rw [if_pos rfl, hnt] at h4
  refine ⟨r, h4, ?_⟩
  intro i id out hi ho hfirst
  have := (read_at h1 h3 (some id)).2
  rw [this, h2, next]
  have hl : es.length = outs.length := hb.length_eq
  have hi' : i < es.length := by simpa using (List.getElem?_eq_some_iff.mp hi).1
  have hz : ((es.map Prod.fst).zip outs)[i]? = some (id, out) := List.getElem?_zip_eq_some.mpr ⟨hi, ho⟩
  have hf : ((es.map Prod.fst).zip outs).findIdx? (fun e => decide (e.1 = id)) = some i := by
    rw [List.findIdx?_eq_some_iff_getElem]
    refine ⟨(List.getElem?_eq_some_iff.mp hz).1, ?_, ?_⟩
    · rw [(List.getElem?_eq_some_iff.mp hz).2]; simp
    · intro j hj
      have := hfirst j hj
      rw [List.getElem?_eq_getElem (by simp; omega)] at this
      rw [List.getElem_zip]
      simpa using this
  simp only [hf, hz]

/-- C97: writing works if the row has less than 256 columns with ASCII names, all rows can be encoded and there are less than 2^32 rows. -/
theorem C97_new_works {row : List Col} (hlen : row.length < 256) (hn : ∀ c ∈ row, ∀ x ∈ c.name, x < 128) (hm : ∀ c ∈ row, ∃ col : Column K, c.kind.make = .ok col) :
    ∃ w : Writer K, Writer.new row = .ok w ∧ List.Forall₂ (fun (c : Col) col => c.kind.make = .ok col) row w.cols := by
  obtain ⟨cols, hcols⟩ : ∃ cols : List (Column K), makeCols row = .ok cols := by
    simp only [makeCols]
    clear hlen hn
    induction row with
    | nil => exact ⟨[], rfl⟩
    | cons c row ih =>
      obtain ⟨col, hcol⟩ := hm c (by simp)
      obtain ⟨cols, hcols⟩ := ih (fun x hx => hm x (by simp [hx]))
      exact ⟨col :: cols, by rw [List.mapM_cons, hcol, ok_bind, hcols]; rfl⟩
  obtain ⟨ds, hds⟩ : ∃ ds, (row.zip cols).mapM (fun p => colHeader p.1 p.2.size) = .ok ds := by
    have : ∀ p ∈ row.zip cols, ∀ x ∈ p.1.name, x < 128 := fun p hp => hn p.1 (List.of_mem_zip hp).1
    clear * - this
    generalize row.zip cols = l at this
    induction l with
    | nil => exact ⟨[], rfl⟩
    | cons p l ih =>
      obtain ⟨ds, hds⟩ := ih (fun x hx => this x (by simp [hx]))
      have ha : writeascii p.1.name = .ok (p.1.name ++ [0]) := by
        rw [writeascii, if_pos]
        simpa using this p (by simp)
      exact ⟨_, by rw [List.mapM_cons, colHeader, ha, ok_bind, hds]; rfl⟩
  refine ⟨{ ncols := row.length, descr := ds.flatten, cols := cols, data := [], index := [] }, ?_, ?_⟩
  · simp only [Writer.new, hcols, ok_bind, hds, pyAssert, hlen, decide_true, if_true]
    rfl
  · rwa [makeCols, Py.mapM_ok] at hcols

theorem encodeRows_ok {cols : List (Column K)} {rows : List (List (GVal K))} (h : ∀ r ∈ rows, ∃ d, growEncode cols r = .ok d) : (encodeRows cols rows).2 = .ok () := by
  induction rows with
  | nil => rfl
  | cons r rows ih =>
    obtain ⟨d, hd⟩ := h r (by simp)
    simp only [encodeRows, hd, ih (fun x hx => h x (by simp [hx]))]

/-- C97: `write` succeeds exactly when all rows can be encoded. -/
theorem C97_write_works (w : Writer K) (segs : List (List (List (GVal K)))) (id : Option Str) :
    (w.write segs id).2 = .ok () ↔ ∀ s ∈ segs, ∀ r ∈ s, ∃ d, growEncode w.cols r = .ok d := by
  have hrows : ∀ rows : List (List (GVal K)), (encodeRows w.cols rows).2 = .ok () → ∀ r ∈ rows, ∃ d, growEncode w.cols r = .ok d := by
    intro rows
    induction rows with
    | nil => simp
    | cons r rows ih =>
      intro h
      simp only [encodeRows] at h
      cases hd : growEncode w.cols r with
      | error e => rw [hd] at h; cases h
      | ok d =>
        rw [hd] at h
        intro x hx
        rcases List.mem_cons.mp hx with rfl | hx
        · exact ⟨d, hd⟩
        · exact ih h x hx
  have hsegs : ∀ segs : List (List (List (GVal K))), (encodeSegs w.cols segs).2 = .ok () ↔ ∀ s ∈ segs, ∀ r ∈ s, ∃ d, growEncode w.cols r = .ok d := by
    intro segs
    induction segs with
    | nil => simp [encodeSegs]
    | cons s segs ih =>
      simp only [encodeSegs, List.forall_mem_cons]
      rw [← ih]
      generalize hres : encodeRows w.cols s = res
      obtain ⟨d, x⟩ := res
      cases x with
      | error e =>
        simp only [reduceCtorEq, false_iff, not_and]
        intro h
        have := encodeRows_ok h
        rw [hres] at this
        cases this
      | ok u =>
        simp only
        constructor
        · exact fun h => ⟨hrows s (by rw [hres]), h⟩
        · exact fun h => h.2
  rw [← hsegs]
  simp only [Writer.write]
  cases (encodeSegs w.cols segs).2 <;> simp

/-- C97: `close` succeeds with less than 2^32 rows. -/
theorem C97_close_works (w : Writer K) (h : (w.index.map (fun e => e.2.sum)).sum < 4294967296) : ∃ files, w.close = .ok files := by
  have : packU 4 ((w.index.map (fun e => e.2.sum)).sum : Nat) = .ok (beBytes 4 (w.index.map (fun e => e.2.sum)).sum) := by
    rw [packU_ok]
    refine ⟨by omega, ?_, by simp⟩
    simp
    omega
  simp only [Writer.close, this, ok_bind]
  exact ⟨_, rfl⟩

/-- C97 fails even with the import: an entity without segments can be written, but then the data set cannot be opened. -/
theorem C97_violated_no_segments {row : List Col} {es after : List (Str × List (List (List (GVal K))))} {id : Str} {w : Writer K}
    (h : Writer.Reaches row (es ++ (id, []) :: after) w) {rg : List Byte} {md : Str} (hc : w.close = .ok (rg, md))
    (hes : ∀ e ∈ es, IdOk e.1 ∧ e.2 ≠ []) (hid : IdOk id) (ha : ∀ e ∈ after, IdOk e.1) (imported : Bool) (nt : List (List Nat) → Py Unit) :
    Reader.new' (K := K) imported nt rg md = .raise .valueError := by
  obtain ⟨cols, ds, bs, h1, h2, h3, rfl, h5⟩ := reaches_inv h
  simp only [Writer.close, Py.bind_ok] at hc
  obtain ⟨n, hn, hc⟩ := hc
  cases hc
  have : readIndex (writeIndex ((es ++ (id, []) :: after).map (fun e => (e.1, e.2.map List.length)))) = .error .valueError := by
    rw [List.map_append, List.map_cons]
    refine C98_no_segments ?_ hid ?_
    · intro e he
      obtain ⟨x, hx, rfl⟩ := List.mem_map.mp he
      exact ⟨(hes x hx).1, by simpa using (hes x hx).2⟩
    · intro e he
      obtain ⟨x, hx, rfl⟩ := List.mem_map.mp he
      exact (ha x hx).2.2
  rw [Reader.new', this]
  rfl

/-! ### C99 -/

/-- C99, what would hold if the module imported `collections`: every history of calls of `read` on an opened data set gives what it should,
entities in order from the cursor, by id the first that has it, `KeyError` for unknown ids and `IndexError` at the end. Missing: the import. -/
theorem C99_reads_partial {row : List Col} {es : List (Str × List (List (List (GVal K))))} {w : Writer K} (h : Writer.Reaches row es w) {rg : List Byte} {md : Str}
    (hc : w.close = .ok (rg, md)) (h0 : ∀ c ∈ row, ∀ x ∈ c.name, x ≠ 0) (hid : ∀ e ∈ es, IdOk e.1 ∧ e.2 ≠ [])
    {outs : List (List (List (List (GVal K))))} (hb : List.Forall₂ (fun (e : Str × List (List (List (GVal K)))) o => List.Forall₂ (List.Forall₂ (Back w.cols)) e.2 o) es outs)
    {nt : List (List Nat) → Py Unit} (hnt : nt (row.map Col.name) = .ok ()) :
    ∃ r : Reader K, Reader.new' true nt rg md = .ok r ∧ ∀ calls, r.calls calls = results ((es.map Prod.fst).zip outs) 0 calls := by
  obtain ⟨hd, L, r, h1, h2, h3, h4⟩ := new_at h hc h0 hid hb true nt
  rw [if_pos rfl, hnt] at h4
  refine ⟨r, h4, fun calls => ?_⟩
  rw [calls_at h1 calls h3, h2]

/-! ### C101 -/

/-- C101, what holds: a write whose first row cannot be encoded changes nothing. Missing: rows written before the failure. -/
theorem C101_failed_write_partial (w : Writer K) {r : List (GVal K)} {rows : List (List (GVal K))} {segs : List (List (List (GVal K)))} {e : PyErr}
    (h : growEncode w.cols r = .error e) (id : Option Str) : w.write ((r :: rows) :: segs) id = (w, .error e) := by
  simp only [Writer.write, encodeSegs, encodeRows, h, List.append_nil]

/-- C101 fails: if some rows were written before the one that cannot be encoded, they stay in the file while the index does not count them. -/
theorem C101_violated (w : Writer K) {r : List (GVal K)} {good rows : List (List (GVal K))} {segs : List (List (List (GVal K)))} {e : PyErr} {bs : List Byte}
    (hg : encodeRows w.cols good = (bs, .ok ())) (h : growEncode w.cols r = .error e) (id : Option Str) :
    w.write ((good ++ r :: rows) :: segs) id = ({ w with data := w.data ++ bs }, .error e) := by
  have : ∀ (good : List (List (GVal K))) (bs : List Byte), encodeRows w.cols good = (bs, .ok ()) → encodeRows w.cols (good ++ r :: rows) = (bs, .error e) := by
    intro good
    induction good with
    | nil => intro bs hg; cases hg; simp only [List.nil_append, encodeRows, h]
    | cons g good ih =>
      intro bs hg
      simp only [encodeRows] at hg
      cases hd : growEncode w.cols g with
      | error e => rw [hd] at hg; simp at hg
      | ok d =>
        rw [hd] at hg
        obtain ⟨a, b⟩ := Prod.mk.inj hg
        have := ih _ (Prod.ext rfl b)
        simp only [List.cons_append, encodeRows, hd, this, a]
  simp only [Writer.write, encodeSegs, this good bs hg]

end

/-! ### Examples -/

/-- A text column and a percentage. -/
def exampleRow : List Col := [{ name := [110], kind := .svar 2 false }, { name := [112], kind := .fvar 0 100 1 false }]

/-- A data set with two entities. -/
def exampleWriter : Py (Writer ℚ) := do
  let w ← Writer.new exampleRow
  let (w, x) := w.write [[[.str [97], .num 50], [.str [98, 99], .num 25]], []] none
  x
  let (w, x) := w.write [[[.str [100], .num 0]]] (some ['z'])
  x
  return w

example : (match exampleWriter with
    | .ok w => match w.close with
      | .ok (rg, md) => match Reader.new' (K := ℚ) true (fun _ => .ok ()) rg md with
        | .ok r => r.calls [none, none, none, some ['0'], none, some ['y'], some ['z']]
        | _ => []
      | _ => []
    | _ => []) = [.ok [[[.str [97], .num 50], [.str [98, 99], .num 25]], []], .ok [[[.str [100], .num 0]]], .error .indexError,
      .ok [[[.str [97], .num 50], [.str [98, 99], .num 25]], []], .ok [[[.str [100], .num 0]]], .error .keyError, .ok [[[.str [100], .num 0]]]] := by
  decide +kernel

/-- After a write that failed in its second row the next entity is read from the wrong place. -/
example : (match (Writer.new exampleRow : Py (Writer ℚ)) with
    | .ok w =>
      let w := (w.write [[[.str [97], .num 50], [.str [98, 99, 100], .num 25]]] none).1
      let w := (w.write [[[.str [100], .num 0]]] (some ['z'])).1
      match w.close with
      | .ok (rg, md) => match Reader.new' (K := ℚ) true (fun _ => .ok ()) rg md with
        | .ok r => r.calls [some ['z']]
        | _ => []
      | _ => []
    | _ => []) = [.ok [[[.str [97], .num 50]]]] := by
  decide +kernel

end Rg
end Coral
