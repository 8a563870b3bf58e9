import Verif.PyList
import Verif.Spec.Rg
import Verif.Proofs.Vlv
import Verif.Props.Grid

/-!
# Proofs about `coral/rg.py`
-/
namespace Coral
namespace Rg

set_option linter.unusedSectionVars false

theorem ok_bind {α β : Type} (a : α) (f : α → Py β) : ((.ok a : Py α) >>= f) = f a := rfl

theorem rok_bind {α β : Type} (a : α) (f : α → Res β) : ((.ok a : Res α) >>= f) = f a := rfl

/-! ### The index file -/

theorem newlines_id {s : Str} (h : '\r' ∉ s) : newlines s = s := by
  induction s with
  | nil => rfl
  | cons c s ih =>
    have hc : c ≠ '\r' := fun e => h (by simp [e])
    rw [newlines.eq_4 c s (fun s' h1 => absurd h1 hc) hc, ih (fun e => h (by simp [e]))]

theorem readline_line {l : Str} (h : '\n' ∉ l) (rest : Str) : readline (l ++ '\n' :: rest) = (l ++ ['\n'], rest) := by
  induction l with
  | nil => simp [readline]
  | cons c l ih =>
    have hc : c ≠ '\n' := fun e => h (by simp [e])
    rw [List.cons_append, readline, if_neg hc, ih (fun e => h (by simp [e]))]
    rfl

theorem decNat_eq_decInt (n : Nat) : decNat n = decInt (n : Int) := by
  rw [decInt, if_neg (by omega)]
  rfl

theorem decNat_not_mem {n : Nat} {c : Char} (h : isSpace c = true) : c ∉ decNat n := by
  intro hc
  have := decInt_noSpace (n : Int) c (by rw [← decNat_eq_decInt]; exact hc)
  rw [this] at h
  cases h

theorem pyIntOf_decNat (n : Nat) : pyIntOf (decNat n) = .ok (n : Int) := by
  rw [decNat_eq_decInt, pyIntOf_decInt]

theorem pyIntOf_line (n : Nat) : pyIntOf (decNat n ++ ['\n']) = .ok (n : Int) := by
  have h := pyIntOf_decNat n
  have hs : NoOuterSpace (decNat n) := by
    rw [decNat_eq_decInt]
    exact noOuterSpace_of_all (decInt_noSpace n)
  rw [pyIntOf, strip_id hs] at h
  rw [pyIntOf, strip_line hs, h]

theorem lens_line (n : Nat) (ns : List Nat) :
    (pySplit ' ' (pyJoin ' ' ((n :: ns).map decNat) ++ ['\n'])).mapM pyIntOf = .ok ((n :: ns).map (fun (k : Nat) => (k : Int))) := by
  induction ns generalizing n with
  | nil =>
    simp only [List.map_cons, List.map_nil, pyJoin]
    rw [pySplit_of_not_mem]
    · rw [List.mapM_cons, pyIntOf_line]; rfl
    · simp only [List.mem_append, List.mem_singleton, not_or]
      exact ⟨decNat_not_mem (by decide), by decide⟩
  | cons m ns ih =>
    have e : pyJoin ' ' ((n :: m :: ns).map decNat) ++ ['\n'] = decNat n ++ ' ' :: (pyJoin ' ' ((m :: ns).map decNat) ++ ['\n']) := by
      simp [pyJoin]
    rw [e, pySplit_append (decNat_not_mem (by decide)), List.mapM_cons, pyIntOf_decNat, ok_bind, ih m]
    rfl

theorem join_not_mem {ns : List Nat} {c : Char} (h : isSpace c = true) (hc : c ≠ ' ') : c ∉ pyJoin ' ' (ns.map decNat) := by
  intro hm
  rcases mem_pyJoin hm with h1 | ⟨s, hs, h2⟩
  · exact hc h1
  · obtain ⟨n, -, rfl⟩ := List.mem_map.mp hs
    exact decNat_not_mem h h2

/-- The index entry with lengths as integers. -/
def ints (e : Str × List Nat) : Str × List Int := (e.1, e.2.map (fun (k : Nat) => (k : Int)))

theorem readEntry_ok {e : Str × List Nat} (hid : IdOk e.1) (hne : e.2 ≠ []) (rest : Str) : readEntry (writeEntry e ++ rest) = .ok (ints e, rest) := by
  obtain ⟨id, lens⟩ := e
  have e1 : writeEntry (id, lens) ++ rest = (id ++ ' ' :: decNat lens.length) ++ '\n' :: (pyJoin ' ' (lens.map decNat) ++ '\n' :: rest) := by
    simp [writeEntry]
  have h1 : '\n' ∉ id ++ ' ' :: decNat lens.length := by
    simp only [List.mem_append, List.mem_cons, not_or]
    exact ⟨hid.2.1, by decide, decNat_not_mem (by decide)⟩
  have h2 : '\n' ∉ pyJoin ' ' (lens.map decNat) := join_not_mem (by decide) (by decide)
  have h3 : pySplit ' ' ((id ++ ' ' :: decNat lens.length) ++ ['\n']) = [id, decNat lens.length ++ ['\n']] := by
    have : (id ++ ' ' :: decNat lens.length) ++ ['\n'] = id ++ ' ' :: (decNat lens.length ++ ['\n']) := by simp
    rw [this, pySplit_append hid.1, pySplit_of_not_mem]
    simp only [List.mem_append, List.mem_singleton, not_or]
    exact ⟨decNat_not_mem (by decide), by decide⟩
  cases lens with
  | nil => exact absurd rfl hne
  | cons n ns =>
    simp only [readEntry, e1, readline_line h1, h3, readline_line h2, pyIntOf_line, ok_bind, lens_line]
    rfl

theorem readEntries_ok {index : List (Str × List Nat)} (h : ∀ e ∈ index, IdOk e.1 ∧ e.2 ≠ []) (rest : Str) :
    readEntries index.length ((index.map writeEntry).flatten ++ rest) = .ok (index.map ints) := by
  induction index with
  | nil => rfl
  | cons e es ih =>
    obtain ⟨a, b⟩ := h e (by simp)
    rw [List.map_cons, List.flatten_cons, List.append_assoc, List.length_cons, readEntries, readEntry_ok a b, ok_bind]
    simp only [ih (fun x hx => h x (by simp [hx])), ok_bind]
    rfl

theorem writeEntry_not_mem {e : Str × List Nat} (h : '\r' ∉ e.1) : '\r' ∉ writeEntry e := by
  have h1 : '\r' ∉ decNat e.2.length := decNat_not_mem (by decide)
  have h2 : '\r' ∉ pyJoin ' ' (e.2.map decNat) := join_not_mem (by decide) (by decide)
  simp only [writeEntry, List.mem_append, List.mem_cons, List.mem_singleton, not_or]
  exact ⟨h, by decide, h1, by decide, h2, by decide, by simp⟩

theorem writeIndex_not_mem {index : List (Str × List Nat)} (h : ∀ e ∈ index, '\r' ∉ e.1) : '\r' ∉ writeIndex index := by
  have h1 : '\r' ∉ decNat index.length := decNat_not_mem (by decide)
  simp only [writeIndex, List.mem_append, List.mem_cons, not_or]
  refine ⟨h1, by decide, ?_⟩
  intro hm
  obtain ⟨l, hl, hc⟩ := List.mem_flatten.mp hm
  obtain ⟨e, he, rfl⟩ := List.mem_map.mp hl
  exact writeEntry_not_mem (h e he) hc

theorem readIndex_start {index : List (Str × List Nat)} (h : ∀ e ∈ index, '\r' ∉ e.1) :
    readIndex (writeIndex index) = readEntries index.length (index.map writeEntry).flatten := by
  have h1 : '\n' ∉ decNat index.length := decNat_not_mem (by decide)
  rw [readIndex, newlines_id (writeIndex_not_mem h), writeIndex, readline_line h1]
  simp only [pyIntOf_line, ok_bind, Int.toNat_natCast]

theorem readIndex_ok {index : List (Str × List Nat)} (h : ∀ e ∈ index, IdOk e.1 ∧ e.2 ≠ []) : readIndex (writeIndex index) = .ok (index.map ints) := by
  rw [readIndex_start (fun e he => (h e he).1.2.2)]
  have := readEntries_ok h []
  rwa [List.append_nil] at this

section
variable {K : Type} [Field K] [LinearOrder K] [IsStrictOrderedRing K] [FloorRing K]

/-! ### The header -/

theorem colHeader_ok {c : Col} {col : Column K} (hm : c.kind.make = .ok col) (h0 : ∀ x ∈ c.name, x ≠ 0) {bs : List Byte}
    (h : colHeader c col.size = .ok bs) (rest : List Byte) : readCol (K := K) (bs ++ rest) = .ok ((c, col), rest) := by
  simp only [colHeader, Py.bind_ok] at h
  obtain ⟨name, hn, h⟩ := h
  cases h
  obtain ⟨cname, kind⟩ := c
  dsimp only at hm hn h0 ⊢
  rw [readCol, List.append_assoc, readascii_writeascii hn h0, rok_bind]
  have key : readKind (kindHeader kind col.size ++ rest) = .ok (kind, rest) := by
    cases kind with
    | ivar minv maxv nullable =>
      cases nullable <;>
      simp [List.append_assoc, List.cons_append, List.nil_append, readKind, kindHeader, readOrd, ok_bind, readvlv_writevlv, readsvlv_writesvlv, pure, Except.pure, Kind.nullable]
    | fvar minv maxv size nullable =>
      have : col.size = size := by
        simp only [Kind.make, Py.bind_ok] at hm
        obtain ⟨v, hv, hm⟩ := hm
        cases hm
        simp only [FVar.init, Py.bind_ok] at hv
        obtain ⟨_, _, _, _, hv⟩ := hv
        cases hv
        rfl
      cases nullable <;>
      simp [List.append_assoc, List.cons_append, List.nil_append, readKind, kindHeader, readOrd, ok_bind, readvlv_writevlv, readsvlv_writesvlv, pure, Except.pure, Kind.nullable, this]
    | svar size nullable =>
      have : col.size = size := by
        cases hm
        rfl
      cases nullable <;>
      simp [List.append_assoc, List.cons_append, List.nil_append, readKind, kindHeader, readOrd, ok_bind, readvlv_writevlv, pure, Except.pure, Kind.nullable, this]
  simp only [key, Res.lift, rok_bind, hm]
  rfl

theorem readCols_ok {row : List Col} {cols : List (Column K)} (hm : List.Forall₂ (fun (c : Col) col => c.kind.make = .ok col) row cols)
    (h0 : ∀ c ∈ row, ∀ x ∈ c.name, x ≠ 0) {ds : List (List Byte)}
    (h : List.Forall₂ (fun (p : Col × Column K) d => colHeader p.1 p.2.size = .ok d) (row.zip cols) ds) (rest : List Byte) :
    readCols (K := K) row.length (ds.flatten ++ rest) = .ok (row.zip cols, rest) := by
  induction hm generalizing ds with
  | nil => cases h; rfl
  | cons hc _ ih =>
    rw [List.zip_cons_cons] at h ⊢
    cases h with
    | cons hd hds =>
      rw [List.flatten_cons, List.append_assoc, List.length_cons, readCols, colHeader_ok hc (h0 _ (by simp)) hd, rok_bind]
      simp only [ih (fun c hc => h0 c (by simp [hc])) hds, rok_bind]
      rfl

theorem make_made {k : Kind} {col : Column K} (h : k.make = .ok col) : col.Made := by
  cases k with
  | ivar a b n =>
    simp only [Kind.make, Py.bind_ok] at h
    obtain ⟨v, hv, h⟩ := h
    cases h
    exact .ivar hv
  | fvar a b s n =>
    simp only [Kind.make, Py.bind_ok] at h
    obtain ⟨v, hv, h⟩ := h
    cases h
    exact .fvar hv
  | svar s n =>
    cases h
    exact .svar _

/-! ### Rows -/

theorem mapM_back {cols : List (Column K)} {row out : List (GVal K)}
    (h : List.Forall₂ (fun (p : Column K × GVal K) x => ∃ d, p.1.encode p.2 = .ok d ∧ p.1.decode d = .ok x) (cols.zip row) out) :
    (cols.zip row).mapM (fun fv => do let d ← fv.1.encode fv.2; fv.1.decode d) = .ok out := by
  rw [Py.mapM_ok]
  refine h.imp ?_
  rintro p x ⟨d, h1, h2⟩
  rw [h1, ok_bind, h2]

theorem rows_ok {cols : List (Column K)} (hm : ∀ c ∈ cols, c.Made) {rows outs : List (List (GVal K))} (hb : List.Forall₂ (Back cols) rows outs)
    {bs : List Byte} (h : encodeRows cols rows = (bs, .ok ())) (pre post : List Byte) :
    readRows (pre ++ bs ++ post) cols rows.length pre.length = (pre.length + bs.length, .ok outs) ∧ bs.length = growSize cols * rows.length := by
  induction hb generalizing bs pre with
  | nil => cases h; simp [readRows]
  | @cons r out rs os hr _ ih =>
    simp only [encodeRows] at h
    cases hd : growEncode cols r with
    | error e => rw [hd] at h; simp at h
    | ok d =>
      rw [hd] at h
      obtain ⟨h1, h2⟩ := Prod.mk.inj h
      subst h1
      obtain ⟨hl, hdec⟩ := C37_row_roundtrip cols hm r hr.1 d hd
      rw [mapM_back hr.2] at hdec
      have e : pre ++ (d ++ (encodeRows cols rs).1) ++ post = (pre ++ d) ++ (encodeRows cols rs).1 ++ post := by simp
      obtain ⟨i1, i2⟩ := ih (bs := (encodeRows cols rs).1) (Prod.ext rfl h2) (pre ++ d)
      have e2 : ((pre ++ (d ++ (encodeRows cols rs).1) ++ post).drop pre.length).take (growSize cols) = d := by
        rw [← hl]; simp
      refine ⟨?_, ?_⟩
      · rw [List.length_cons, readRows, e2, hdec]
        simp only
        rw [e, ← List.length_append, i1]
        simp only [List.length_append, ok_bind]
        rw [Nat.add_assoc]
        rfl
      · rw [List.length_append, hl, i2, List.length_cons, Nat.mul_add]
        omega

theorem segs_ok {cols : List (Column K)} (hm : ∀ c ∈ cols, c.Made) {segs outs : List (List (List (GVal K)))}
    (hb : List.Forall₂ (List.Forall₂ (Back cols)) segs outs) {bs : List Byte} (h : encodeSegs cols segs = (bs, .ok ())) (pre post : List Byte) :
    readSegs (pre ++ bs ++ post) cols ((segs.map List.length).map (fun (k : Nat) => (k : Int))) pre.length = (pre.length + bs.length, .ok outs) ∧
      bs.length = growSize cols * (segs.map List.length).sum := by
  induction hb generalizing bs pre with
  | nil => cases h; simp [readSegs]
  | @cons s out ss os hs _ ih =>
    simp only [encodeSegs] at h
    generalize hd : encodeRows cols s = res at h
    obtain ⟨d, res⟩ := res
    cases res with
    | error e => simp at h
    | ok u =>
      obtain ⟨h1, h2⟩ := Prod.mk.inj h
      subst h1
      obtain ⟨j1, j2⟩ := rows_ok hm hs hd pre ((encodeSegs cols ss).1 ++ post)
      have e : pre ++ (d ++ (encodeSegs cols ss).1) ++ post = (pre ++ d) ++ (encodeSegs cols ss).1 ++ post := by simp
      have e' : pre ++ (d ++ (encodeSegs cols ss).1) ++ post = pre ++ d ++ ((encodeSegs cols ss).1 ++ post) := by simp
      obtain ⟨i1, i2⟩ := ih (bs := (encodeSegs cols ss).1) (Prod.ext rfl h2) (pre ++ d)
      refine ⟨?_, ?_⟩
      · simp only [List.map_cons, readSegs, Int.toNat_natCast]
        rw [e', j1]
        simp only
        rw [← e', e, ← List.length_append, i1]
        simp only [List.length_append, ok_bind]
        rw [Nat.add_assoc]
        rfl
      · rw [List.length_append, j2, i2, List.map_cons, List.sum_cons, Nat.mul_add]

/-! ### Reading entities -/

/-- What is known of a stored entity. -/
structure Ent (K : Type) where
  id : Str
  lens : List Nat
  bytes : List Byte
  out : List (List (List (GVal K)))

/-- Its bytes are read as they should. -/
def Ent.Good (cols : List (Column K)) (e : Ent K) : Prop :=
  (∀ pre post : List Byte, readSegs (pre ++ e.bytes ++ post) cols (e.lens.map (fun (k : Nat) => (k : Int))) pre.length = (pre.length + e.bytes.length, .ok e.out)) ∧
    e.bytes.length = growSize cols * e.lens.sum

/-- A reader of these entities, at the cursor `c`. -/
def At (hd : List Byte) (L : List (Ent K)) (cols : List (Column K)) (c : Nat) (r : Reader K) : Prop :=
  r = { rg := hd ++ (L.map Ent.bytes).flatten, pos := (hd ++ ((L.take c).map Ent.bytes).flatten).length, index := L.map (fun e => (e.id, e.lens.map (fun (k : Nat) => (k : Int)))),
        cols := cols, datapos := hd.length, idx := c }

theorem readNext_at {hd : List Byte} {L : List (Ent K)} {cols : List (Column K)} (hL : ∀ e ∈ L, e.Good cols) {c : Nat} {r : Reader K} (h : At hd L cols c r) :
    match L[c]? with
    | some e => At hd L cols (c + 1) r.readNext.1 ∧ r.readNext.2 = .ok e.out
    | none => r.readNext = (r, .error .indexError) := by
  subst h
  cases he : L[c]? with
  | none =>
    simp only [Reader.readNext, List.getElem?_map, he, Option.map_none]
  | some e =>
    have hlt : c < L.length := (List.getElem?_eq_some_iff.mp he).1
    have hec : L[c] = e := (List.getElem?_eq_some_iff.mp he).2
    have hsplit : L = L.take c ++ e :: L.drop (c + 1) := by
      conv => lhs; rw [← List.take_append_drop c L]
      rw [List.drop_eq_getElem_cons hlt, hec]
    have e1 : hd ++ (L.map Ent.bytes).flatten = (hd ++ ((L.take c).map Ent.bytes).flatten) ++ e.bytes ++ ((L.drop (c + 1)).map Ent.bytes).flatten := by
      conv => lhs; rw [hsplit]
      simp
    have g := (hL e (List.mem_of_getElem? he)).1 (hd ++ ((L.take c).map Ent.bytes).flatten) ((L.drop (c + 1)).map Ent.bytes).flatten
    rw [← e1] at g
    have e2 : L.take (c + 1) = L.take c ++ [e] := by rw [List.take_succ, he]; rfl
    simp only [Reader.readNext, List.getElem?_map, he, Option.map_some, g, At, e2, and_true, Reader.mk.injEq, true_and]
    simp only [List.map_append, List.map_cons, List.map_nil, List.flatten_append, List.flatten_cons, List.flatten_nil, List.length_append, List.append_nil]
    omega

theorem find_none {size : Nat} {id : Str} {L : List (Ent K)} (h : ∀ e ∈ L, e.id ≠ id) (n : Nat) (o : Int) :
    find size id (L.map (fun e => (e.id, e.lens.map (fun (k : Nat) => (k : Int))))) n o = none := by
  induction L generalizing n o with
  | nil => rfl
  | cons e L ih => rw [List.map_cons, find, if_neg (h e (by simp)), ih (fun x hx => h x (by simp [hx]))]

theorem find_some {size : Nat} {id : Str} {L1 L2 : List (Ent K)} {e : Ent K} (h : ∀ e ∈ L1, e.id ≠ id) (he : e.id = id) (n : Nat) (o : Int) :
    find size id ((L1 ++ e :: L2).map (fun e => (e.id, e.lens.map (fun (k : Nat) => (k : Int))))) n o =
      some (n + L1.length, o + (size * (L1.map (fun e => e.lens.sum)).sum : Nat)) := by
  induction L1 generalizing n o with
  | nil => simp [find, he]
  | cons x L1 ih =>
    rw [List.cons_append, List.map_cons, find, if_neg (h x (by simp)), ih (fun y hy => h y (by simp [hy]))]
    have : (x.lens.map (fun (k : Nat) => (k : Int))).sum = (x.lens.sum : Nat) := by
      generalize x.lens = l
      induction l with
      | nil => rfl
      | cons a l ih => rw [List.map_cons, List.sum_cons, List.sum_cons, ih]; simp
    simp only [this, List.length_cons, List.map_cons, List.sum_cons, Option.some.injEq, Prod.mk.injEq]
    refine ⟨by omega, ?_⟩
    push_cast
    rw [Int.mul_add]
    omega

theorem bytes_length {L : List (Ent K)} {cols : List (Column K)} (hL : ∀ e ∈ L, e.Good cols) :
    (L.map Ent.bytes).flatten.length = growSize cols * (L.map (fun e => e.lens.sum)).sum := by
  induction L with
  | nil => simp
  | cons e L ih =>
    simp only [List.map_cons, List.flatten_cons, List.length_append, List.sum_cons, ih (fun x hx => hL x (by simp [hx])), (hL e (by simp)).2, Nat.mul_add]

theorem read_at {hd : List Byte} {L : List (Ent K)} {cols : List (Column K)} (hL : ∀ e ∈ L, e.Good cols) {c : Nat} {r : Reader K} (h : At hd L cols c r)
    (call : Option Str) :
    At hd L cols (next (L.map (fun e => (e.id, e.out))) c call).1 (r.read call).1 ∧ (r.read call).2 = (next (L.map (fun e => (e.id, e.out))) c call).2 := by
  cases call with
  | none =>
    have hn := readNext_at hL h
    simp only [Reader.read, next, List.getElem?_map]
    cases he : L[c]? with
    | none =>
      rw [he] at hn
      simp only at hn
      rw [hn]
      exact ⟨h, rfl⟩
    | some e =>
      rw [he] at hn
      exact hn
  | some id =>
    simp only [next, List.findIdx?_map]
    cases hf : L.findIdx? ((fun e : Str × List (List (List (GVal K))) => decide (e.1 = id)) ∘ fun e => (e.id, e.out)) with
    | none =>
      have hno : ∀ e ∈ L, e.id ≠ id := by
        intro e he
        have := List.findIdx?_eq_none_iff.mp hf e he
        simpa using this
      have hc : r.cols = cols := by rw [h]
      have hi : r.index = L.map (fun e => (e.id, e.lens.map (fun (k : Nat) => (k : Int)))) := by rw [h]
      simp only [Reader.read, hi, find_none hno]
      exact ⟨h, trivial⟩
    | some j =>
      obtain ⟨hj, hp, hbefore⟩ := List.findIdx?_eq_some_iff_getElem.mp hf
      have hjid : L[j].id = id := by simpa using hp
      have hsplit : L = L.take j ++ L[j] :: L.drop (j + 1) := by
        conv => lhs; rw [← List.take_append_drop j L]
        rw [List.drop_eq_getElem_cons hj]
      have hno : ∀ e ∈ L.take j, e.id ≠ id := by
        intro e he
        obtain ⟨i, hi, rfl⟩ := List.mem_iff_getElem.mp he
        rw [List.length_take] at hi
        have := hbefore i (by omega)
        rw [List.getElem_take]
        simpa using this
      have hc : r.cols = cols := by rw [h]
      have hi : r.index = L.map (fun e => (e.id, e.lens.map (fun (k : Nat) => (k : Int)))) := by rw [h]
      have hdp : r.datapos = hd.length := by rw [h]
      have hfind : find (growSize r.cols) id r.index 0 0 = some (j, ((growSize cols * ((L.take j).map (fun e => e.lens.sum)).sum : Nat) : Int)) := by
        rw [hi, hc]
        conv => lhs; rw [hsplit]
        rw [find_some hno hjid]
        simp
        omega
      have hat : At hd L cols j { r with idx := j, pos := ((r.datapos : Int) + ((growSize cols * ((L.take j).map (fun e => e.lens.sum)).sum : Nat) : Int)).toNat } := by
        rw [h]
        simp only [At, Reader.mk.injEq, true_and, and_true]
        rw [List.length_append, bytes_length (fun e he => hL e (List.mem_of_mem_take he))]
        omega
      have hn := readNext_at hL hat
      rw [List.getElem?_eq_getElem hj] at hn
      simp only [Reader.read, hfind]
      rw [if_pos (by omega)]
      simp only [List.getElem?_map, List.getElem?_eq_getElem hj, Option.map_some]
      exact hn

theorem calls_at {hd : List Byte} {L : List (Ent K)} {cols : List (Column K)} (hL : ∀ e ∈ L, e.Good cols) (cs : List (Option Str)) {c : Nat} {r : Reader K}
    (h : At hd L cols c r) : r.calls cs = results (L.map (fun e => (e.id, e.out))) c cs := by
  induction cs generalizing c r with
  | nil => rfl
  | cons x cs ih =>
    obtain ⟨h1, h2⟩ := read_at hL h x
    rw [Reader.calls, results, h2, ih h1]

/-! ### Writing -/

theorem reaches_inv {row : List Col} {es : List (Str × List (List (List (GVal K))))} {w : Writer K} (h : Writer.Reaches row es w) :
    ∃ cols ds bs, makeCols row = .ok cols ∧ row.length < 256 ∧ (row.zip cols).mapM (fun p => colHeader p.1 p.2.size) = .ok ds ∧
      w = { ncols := row.length, descr := ds.flatten, cols := cols, data := bs.flatten, index := es.map (fun e => (e.1, e.2.map List.length)) } ∧
      List.Forall₂ (fun (e : Str × List (List (List (GVal K)))) b => encodeSegs cols e.2 = (b, .ok ())) es bs := by
  induction h with
  | new h =>
    simp only [Writer.new, Py.bind_ok, pyAssert] at h
    obtain ⟨cols, h1, _, h2, ds, h3, h⟩ := h
    cases h
    refine ⟨cols, ds, [], h1, ?_, h3, rfl, .nil⟩
    by_contra hc
    rw [if_neg (by simpa using hc)] at h2
    cases h2
  | @write es w w' segs id _ hw ih =>
    obtain ⟨cols, ds, bs, h1, h2, h3, rfl, h5⟩ := ih
    simp only [Writer.write] at hw
    generalize hres : encodeSegs cols segs = res at hw
    obtain ⟨d, x⟩ := res
    cases x with
    | error e => simp at hw
    | ok u =>
      simp only at hw
      obtain ⟨h6, -⟩ := Prod.mk.inj hw
      refine ⟨cols, ds, bs ++ [d], h1, h2, h3, ?_, ?_⟩
      · rw [← h6]
        simp
      · exact List.rel_append h5 (.cons hres .nil)

theorem ents_of {cols : List (Column K)} (hm : ∀ c ∈ cols, c.Made) {es : List (Str × List (List (List (GVal K))))} {bs : List (List Byte)}
    (h : List.Forall₂ (fun (e : Str × List (List (List (GVal K)))) b => encodeSegs cols e.2 = (b, .ok ())) es bs)
    {outs : List (List (List (List (GVal K))))} (hb : List.Forall₂ (fun (e : Str × List (List (List (GVal K)))) o => List.Forall₂ (List.Forall₂ (Back cols)) e.2 o) es outs) :
    ∃ L : List (Ent K), (∀ e ∈ L, e.Good cols) ∧ L.map Ent.bytes = bs ∧ L.map (fun e => (e.id, e.lens)) = es.map (fun e => (e.1, e.2.map List.length)) ∧
      L.map (fun e => (e.id, e.out)) = (es.map Prod.fst).zip outs := by
  induction h generalizing outs with
  | nil => cases hb; exact ⟨[], by simp, rfl, rfl, rfl⟩
  | @cons e b es bs he _ ih =>
    cases hb with
    | @cons _ o _ os ho hos =>
      obtain ⟨L, h1, h2, h3, h4⟩ := ih hos
      refine ⟨⟨e.1, e.2.map List.length, b, o⟩ :: L, ?_, ?_, ?_, ?_⟩
      · intro x hx
        rcases List.mem_cons.mp hx with rfl | hx
        · exact ⟨fun pre post => (segs_ok hm ho he pre post).1, (segs_ok hm ho he [] []).2⟩
        · exact h1 x hx
      · simp [h2]
      · simp [h3]
      · simp [h4]

/-- The reader of a written data set. -/
theorem new_at {row : List Col} {es : List (Str × List (List (List (GVal K))))} {w : Writer K} (h : Writer.Reaches row es w) {rg : List Byte} {md : Str}
    (hc : w.close = .ok (rg, md)) (h0 : ∀ c ∈ row, ∀ x ∈ c.name, x ≠ 0) (hid : ∀ e ∈ es, IdOk e.1 ∧ e.2 ≠ [])
    {outs : List (List (List (List (GVal K))))} (hb : List.Forall₂ (fun (e : Str × List (List (List (GVal K)))) o => List.Forall₂ (List.Forall₂ (Back w.cols)) e.2 o) es outs)
    (imported : Bool) (nt : List (List Nat) → Py Unit) :
    ∃ hd L r, (∀ e ∈ L, e.Good w.cols) ∧ L.map (fun e => (e.id, e.out)) = (es.map Prod.fst).zip outs ∧ At hd L w.cols 0 r ∧
      Reader.new' imported nt rg md = if imported then (do let _ ← Res.lift (nt (row.map Col.name)); return r) else .raise .nameError := by
  obtain ⟨cols, ds, bs, h1, h2, h3, rfl, h5⟩ := reaches_inv h
  simp only [Writer.close, Py.bind_ok] at hc
  obtain ⟨n, hn, hc⟩ := hc
  cases hc
  have hnl : n.length = 4 := packU_length hn
  rw [makeCols, Py.mapM_ok] at h1
  rw [Py.mapM_ok] at h3
  have hmade : ∀ c ∈ cols, c.Made := by
    intro c hc
    obtain ⟨i, hi, rfl⟩ := List.mem_iff_getElem.mp hc
    exact make_made ((List.forall₂_iff_get.mp h1).2 i (by have := h1.length_eq; omega) hi)
  obtain ⟨L, g1, g2, g3, g4⟩ := ents_of hmade h5 hb
  subst g2
  refine ⟨[82, 71, 1, row.length] ++ n.reverse ++ ds.flatten, L, _, g1, g4, rfl, ?_⟩
  have e1 : readIndex (writeIndex (es.map (fun e => (e.1, e.2.map List.length)))) = .ok (L.map (fun e => (e.id, e.lens.map (fun (k : Nat) => (k : Int))))) := by
    rw [readIndex_ok, ← g3, List.map_map]
    · rfl
    · intro e he
      obtain ⟨x, hx, rfl⟩ := List.mem_map.mp he
      exact ⟨(hid x hx).1, by simpa using (hid x hx).2⟩
  have e2 : readStart ([82, 71, 1, row.length] ++ n.reverse ++ ds.flatten ++ (L.map Ent.bytes).flatten) = .ok (row.length, ds.flatten ++ (L.map Ent.bytes).flatten) := by
    simp only [List.cons_append, List.nil_append, List.append_assoc, readStart, pyAssert, List.take_succ_cons, List.take_zero, List.drop_succ_cons, List.drop_zero,
      decide_true, if_true, ok_bind, readOrd]
    rw [if_neg (by simp [hnl]), ← hnl, ← List.length_reverse (as := n), List.drop_left]
    rfl
  have hlen : row.length = cols.length := h1.length_eq
  simp only [Reader.new', e1, e2, Res.lift, rok_bind, readCols_ok h1 h0 h3]
  have e3 : (row.zip cols).map (fun c => c.1.name) = row.map Col.name := by
    have := List.map_fst_zip (l₁ := row) (l₂ := cols) (by omega)
    conv => rhs; rw [← this]
    rw [List.map_map]
    rfl
  have e4 : (row.zip cols).map (fun c => c.2) = cols := List.map_snd_zip (by omega)
  cases imported with
  | false => rfl
  | true =>
    simp only [if_true, e3, e4]
    have e5 : ([82, 71, 1, row.length] ++ n.reverse ++ ds.flatten ++ (L.map Ent.bytes).flatten).length - (L.map Ent.bytes).flatten.length =
        ([82, 71, 1, row.length] ++ n.reverse ++ ds.flatten).length := by
      rw [List.length_append]; omega
    rw [e5]
    simp

end

end Rg
end Coral
