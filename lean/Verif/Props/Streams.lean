import Verif.Model.Streams
import Verif.Props.SaveTo

/-!
# Shapefiles in open files, missing files and readers used again (C149-C151)
-/
namespace Coral
namespace Shapefile

set_option linter.unusedSectionVars false

/-- Bytes written over an older content. -/
def over (old new : List Byte) : List Byte := new ++ old.drop new.length

section
variable {D : Type} [Double D]

/-! ### C149 -/

/-- A file that is written over an older content, beside the same file written from scratch. -/
def above (old : List Byte) (g : File) : File := ⟨over old g.data, g.pos⟩

theorem write_above {old : List Byte} {g : File} (h : g.pos ≤ g.data.length) (bs : List Byte) :
    (above old g).write bs = above old (g.write bs) := by
  have e1 : g.pos - (g.data ++ old.drop g.data.length).length = 0 := by simp only [List.length_append]; omega
  have e2 : g.pos - g.data.length = 0 := by omega
  simp only [File.write, above, over, e1, e2, List.replicate_zero, List.append_nil, File.mk.injEq, and_true]
  rw [List.take_append_of_le_length h, List.drop_append, List.drop_drop]
  simp only [List.append_assoc, List.append_cancel_left_eq]
  congr 1
  simp only [List.length_append, List.length_take, List.length_drop]
  omega

theorem seek_above (old : List Byte) (g : File) (p : Nat) : (above old g).seek p = above old (g.seek p) := rfl

theorem recordsLoop_above (old : List Byte) {w : Option Int} {n : Nat} {f : File} (hf : f.pos = f.data.length) (offs lens : List Nat)
    (ss : List (Shape D)) : recordsLoop w n (above old f) offs lens ss =
      (recordsLoop w n f offs lens ss).map (fun r => (above old r.1, r.2)) := by
  induction ss generalizing n f offs lens with
  | nil => rfl
  | cons s ss ih =>
    simp only [recordsLoop]
    cases hn : packBI n with
    | error e => rfl
    | ok bn =>
    cases h0 : packBI 0 with
    | error e => rfl
    | ok b0 =>
    cases ht : number (retype w s).shapeType with
    | error e => rfl
    | ok t =>
    cases hc : content (retype w s) t with
    | error e => simp only [ok_bind]; rw [hc]; rfl
    | ok c =>
    obtain ⟨bs, s'⟩ := c
    have ln := packBI_length hn
    have l0 := packBI_length h0
    have w1 := write_end hf (bn ++ b0)
    have w2 : (f.write (bn ++ b0)).write bs = ⟨f.data ++ (bn ++ b0) ++ bs, (f.data ++ (bn ++ b0) ++ bs).length⟩ := by
      rw [w1, write_end rfl]
    have a1 : (above old f).write (bn ++ b0) = above old (f.write (bn ++ b0)) := write_above (by omega) _
    have a2 : (above old (f.write (bn ++ b0))).write bs = above old ((f.write (bn ++ b0)).write bs) := write_above (by rw [w1]; exact Nat.le_refl _) _
    simp only [ok_bind, hc, a1, a2, seek_above]
    have p1 : ∀ g : File, (above old g).pos = g.pos := fun _ => rfl
    simp only [p1]
    cases hl : packBI ((((f.write (bn ++ b0)).write bs).pos - (f.write (bn ++ b0)).pos) / 2 : Nat) with
    | error e => rfl
    | ok bl =>
    have ll := packBI_length hl
    have w3 : ((((f.write (bn ++ b0)).write bs).seek ((f.write (bn ++ b0)).pos - 4)).write bl).seek ((f.write (bn ++ b0)).write bs).pos =
        ⟨f.data ++ (bn ++ (bl ++ bs)), (f.data ++ (bn ++ (bl ++ bs))).length⟩ := by
      rw [w2, w1, write_patch f.data bn b0 bl bs (by omega) _ (by simp; omega)]
      simp [File.seek]
      omega
    have a3 : (above old (((f.write (bn ++ b0)).write bs).seek ((f.write (bn ++ b0)).pos - 4))).write bl =
        above old ((((f.write (bn ++ b0)).write bs).seek ((f.write (bn ++ b0)).pos - 4)).write bl) :=
      write_above (by rw [w2, w1]; simp [File.seek]; omega) _
    simp only [ok_bind, a3, seek_above]
    rw [w3, ih rfl]
    cases recordsLoop w (n + 1) (⟨f.data ++ (bn ++ (bl ++ bs)), (f.data ++ (bn ++ (bl ++ bs))).length⟩ : File) (offs ++ [f.pos])
      (lens ++ [(((f.write (bn ++ b0)).write bs).pos - (f.write (bn ++ b0)).pos) / 2]) ss with
    | error e => rfl
    | ok r => rfl

theorem start_above (f : File) (h : List Byte) : (f.seek 0).write h = above f.data ⟨h, h.length⟩ := by
  simp [File.write, File.seek, above, over]

/-- C149: what `save(shp=f)` leaves in an open file: the file that saving by name writes, over the older content; it raises if that raises. -/
theorem C149_shapes_over (w : Writer D) (f : File) :
    (w.saveShpInto f).map (fun r => (r.1, r.2.data)) = w.saveShp.map (fun r => (r.1, over f.data r.2)) := by
  simp only [Writer.saveShpInto, Writer.saveShp]
  cases w.withType with
  | error e => rfl
  | ok w =>
  simp only [ok_bind]
  cases number w.shapeType with
  | error e => rfl
  | ok t =>
  simp only [ok_bind]
  cases hh : header (shpFileLength t w.shapes) t w.shapes with
  | error e => rfl
  | ok h =>
  obtain ⟨n, m, hn, hm, hlen, -⟩ := header_ok hh
  simp only [ok_bind]
  rw [start_above, seek_above, recordsLoop_above _ (by simp [File.seek, hlen])]
  cases recordsLoop w.shapeType 1 ((File.mk h h.length).seek 100) w.offsets w.lengths w.shapes with
  | error e => rfl
  | ok r => rfl

/-- C149: the same for the index. -/
theorem C149_index_over (w : Writer D) (f : File) :
    (w.saveShxInto f).map (fun r => (r.1, r.2.data)) = w.saveShx.map (fun r => (r.1, over f.data r.2)) := by
  simp only [Writer.saveShxInto, Writer.saveShx]
  cases w.withType with
  | error e => rfl
  | ok w =>
  simp only [ok_bind]
  cases number w.shapeType with
  | error e => rfl
  | ok t =>
  simp only [ok_bind]
  cases hh : header (.ok ((100 + w.shapes.length * 8) / 2)) t w.shapes with
  | error e => rfl
  | ok h =>
  obtain ⟨n, m, hn, hm, hlen, -⟩ := header_ok hh
  simp only [ok_bind]
  cases shxRecords w.offsets w.lengths w.shapes.length with
  | error e => rfl
  | ok rs =>
  show Except.ok _ = Except.ok _
  rw [start_above, seek_above, write_above (by simp [File.seek, hlen]), write_end (by simp [File.seek, hlen])]
  rfl

/-- C149, what holds: in a file that is empty or not longer than what is saved, the result is the file saved by name. Missing: longer files,
see below. -/
theorem C149_same_file_partial {w w' : Writer D} {shp : List Byte} (h : w.saveShp = .ok (w', shp)) (f : File) (hf : f.data.length ≤ shp.length) :
    ∃ f', w.saveShpInto f = .ok (w', f') ∧ f'.data = shp := by
  have h1 := C149_shapes_over w f
  rw [h] at h1
  cases h2 : w.saveShpInto f with
  | error e => rw [h2] at h1; cases h1
  | ok r =>
    rw [h2] at h1
    have h3 := Except.ok.inj h1
    simp only [Prod.mk.injEq, over] at h3
    rw [List.drop_eq_nil_of_le hf, List.append_nil] at h3
    exact ⟨r.2, by rw [← h3.1], h3.2⟩

theorem Recs.more {w : Option Int} {noM : Bool} {n : Nat} {ss ss' : List (Shape D)} {rs : List (List Byte)} (h : Recs w n ss rs ss')
    (pre : List Byte) {rest : List Byte} (hrest : rest ≠ []) {outs : List (Shape D)}
    (hs : Shapes D noM (pre ++ (rs.flatten ++ rest)) pre.length (.ok outs)) : ss.length < outs.length := by
  induction h generalizing pre outs with
  | nil =>
    generalize hr : (Except.ok outs : Py (List (Shape D))) = res at hs
    cases hs with
    | done hd =>
      have := List.length_pos_iff.mpr hrest
      simp at hd; omega
    | raise hp => cases hr
    | next hp hat hnext =>
      rename_i pos' s0 r0
      cases r0 with
      | error e => cases hr
      | ok outs0 => rw [show outs = s0 :: outs0 from Except.ok.inj hr]; simp
  | cons hrec _ ih =>
    rename_i r _ _ rs _ _
    have hpos := hrec.length.1
    generalize hr : (Except.ok outs : Py (List (Shape D))) = res at hs
    cases hs with
    | done hd => simp at hd; omega
    | raise hp => cases hr
    | next hp hat hnext =>
      rename_i pos' s0 r0
      cases r0 with
      | error e => cases hr
      | ok outs0 =>
        have ho : outs = s0 :: outs0 := Except.ok.inj hr
        have hp' : pos' = pre.length + r.length := by
          simp only [shapeAt, List.flatten_cons, List.drop_left, List.append_assoc, Py.bind_ok] at hat
          obtain ⟨⟨o1, l1⟩, hread, hat⟩ := hat
          have := hrec.next noM (rs.flatten ++ rest) hread
          simp only at hat
          rw [if_pos (by omega)] at hat
          cases hat
          omega
        have := ih (pre ++ r) (outs := outs0) (by simpa [hp'] using hnext)
        simp [ho]; omega

/-- C149 fails: if the file was longer, `shapes()` does not give the saved shapes, but more shapes, or it raises. -/
theorem C149_longer_violated {w w' : Writer D} {f f' : File} (h : w.saveShpInto f = .ok (w', f')) {w1 : Writer D} {shp : List Byte}
    (hn : w.saveShp = .ok (w1, shp)) (hlong : shp.length < f.data.length) (noM : Bool) {l : List (Shape D)}
    (hl : Shapes D noM f'.data 100 (.ok l)) : w.shapes.length < l.length := by
  have h1 := C149_shapes_over w f
  rw [h, hn] at h1
  have h3 := Except.ok.inj h1
  simp only [Prod.mk.injEq] at h3
  obtain ⟨t, n, m, hd, rs, hft, hst, hsz, hm, hhd, rfl, hrecs, -⟩ := saveShp_ok hn
  rw [h3.2, over, List.append_assoc, ← hhd] at hl
  refine hrecs.more hd ?_ hl
  intro he
  have := List.drop_eq_nil_iff.mp he
  omega

theorem readBI_more {l rest : List Byte} {v : Int} {r : List Byte} (h : readBI l = .ok (v, r)) : readBI (l ++ rest) = .ok (v, r ++ rest) := by
  unfold readBI at *
  split at h
  · rename_i hl
    cases h
    rw [if_pos (by simp; omega), List.take_append_of_le_length hl, List.drop_append_of_le_length hl]
  · cases h

theorem readBI_ne {l : List Byte} {v : Int} {r : List Byte} (h : readBI l = .ok (v, r)) : 4 ≤ l.length := by
  unfold readBI at h
  split at h
  · assumption
  · cases h

theorem readBI_drop {d rest : List Byte} {k : Nat} {v : Int} {r : List Byte} (h : readBI (d.drop k) = .ok (v, r)) :
    readBI ((d ++ rest).drop k) = .ok (v, r ++ rest) := by
  have := readBI_ne h
  rw [List.length_drop] at this
  rw [List.drop_append_of_le_length (by omega)]
  exact readBI_more h

/-- C149: what an older index leaves behind the new one does not matter: the offsets are those of the saved index. -/
theorem C149_index_partial {shx rest : List Byte} {offs : List Int} (h : shxOffsets shx = .ok offs) : shxOffsets (shx ++ rest) = .ok offs := by
  simp only [shxOffsets, Py.bind_ok] at h
  obtain ⟨⟨l, r⟩, hl, h⟩ := h
  simp only [shxOffsets, readBI_drop hl, ok_bind]
  rw [Py.mapM_ok] at h ⊢
  refine h.imp ?_
  intro i o hi
  simp only [Py.bind_ok] at hi
  obtain ⟨⟨v, r'⟩, hv, hi⟩ := hi
  simp only [readBI_drop hv, ok_bind]
  exact hi

/-- A point file of one record written over one of two records: the second record is still there. -/
example : (do
    let (_, f) ← (Writer.point (Writer.point { shapeType := some 1 } (toy 1) (toy 2) 0 0) (toy 3) (toy 4) 0 0).saveShpInto ⟨[], 0⟩
    let (_, shp) ← (Writer.point { shapeType := some 1 } (toy 5) (toy 6) 0 0).saveShp
    let (_, g) ← (Writer.point { shapeType := some 1 } (toy 5) (toy 6) 0 0).saveShpInto f
    let (s0, p) ← shapeAt (D := Toy) false g.data 100
    let (s1, q) ← shapeAt (D := Toy) false g.data p
    return ([shp.length, q, g.data.length], s0.points, s1.points)) =
    (.ok ([128, 156, 156], [[toy 5, toy 6]], [[toy 3, toy 4]]) : Py (List Nat × List (List Toy) × List (List Toy))) := by
  decide +kernel

/-! ### C150 -/

/-- C150 fails: opened by name, a data set with shapes but without an index or without attributes is not opened at all. -/
theorem C150_by_name_violated {d : Disk} {name : Str} (h : d (root name ++ shxExt) = none ∨ d (root name ++ dbfExt) = none) :
    load d name = .error .shapefileException := by
  unfold load
  split
  · rename_i h1 h2 h3
    rcases h with h | h
    · rw [h] at h2; cases h2
    · rw [h] at h3; cases h3
  · rfl

/-- Shapes without index or attributes, on a disk with one file. -/
example : (fun p => if p = ['a', '.', 's', 'h', 'p'] then some [] else none : Disk) (root ['a'] ++ shxExt) = none ∧
    (fun p => if p = ['a', '.', 's', 'h', 'p'] then some [] else none : Disk) (root ['a'] ++ shpExt) = some [] := by
  decide

/-- C150, what holds: given as open files, the shapes are opened without index or attributes, the attributes without shapes, and what is
there is what is there if all files are given. Missing: files opened by name, see above. -/
theorem C150_objects_partial {shp dbf : List Byte} {shx : Option (List Byte)} {g : Reader D} {a : Dbf.Reader}
    (h : Reader.objects (some shp) shx (some dbf) = .ok (some g, some a)) :
    (∃ g' : Reader D, Reader.objects (some shp) none none = .ok (some g', none) ∧ g'.shp = g.shp ∧ g'.noM = g.noM) ∧
    Reader.objects (D := D) none none (some dbf) = .ok (none, some a) := by
  simp only [Reader.objects, Reader.new, Py.bind_ok] at h
  obtain ⟨g0, ⟨⟨l, t, m⟩, hm, hg⟩, a0, ha, h⟩ := h
  cases hg
  cases h
  refine ⟨⟨{ shp := shp, shx := none, numRecords := none, measure := m }, ?_, rfl, rfl⟩, ?_⟩
  · simp only [Reader.objects, Reader.new, hm, ok_bind]; rfl
  · simp only [Reader.objects, ha, ok_bind]; rfl

theorem shape_search {r : Reader D} (hshx : r.shx = none) {i j : Int} (hi : restrictIndex r.numRecords i = .ok j) {l : List (Shape D)}
    (hl : Shapes D r.noM r.shp 100 (.ok l)) (res : Py (Reader D × Shape D)) :
    Reader.Shape r i res ↔ (∃ s, 0 ≤ j ∧ l[j.toNat]? = some s ∧ res = .ok (r, s)) ∨ ((j < 0 ∨ l[j.toNat]? = none) ∧ res = .error .typeError) := by
  have hidx : r.shapeIndex j = .ok (r, none) := by simp [Reader.shapeIndex, hshx]
  constructor
  · intro h
    cases h with
    | range h => rw [hi] at h; cases h
    | index h h' => rw [hi] at h; cases h; rw [hidx] at h'; cases h'
    | found h h' h'' => rw [hi] at h; cases h; rw [hidx] at h'; cases h'
    | before h h' h'' => rw [hi] at h; cases h; rw [hidx] at h'; cases h'
    | search h h' h'' hs hj hx =>
      rw [hi] at h; cases h; rw [hidx] at h'; cases h'
      cases hl.det hs
      exact .inl ⟨_, hj, hx, rfl⟩
    | missing h h' hs hx =>
      rw [hi] at h; cases h; rw [hidx] at h'; cases h'
      cases hl.det hs
      exact .inr ⟨hx, rfl⟩
  · rintro (⟨s, hj, hs, rfl⟩ | ⟨hx, rfl⟩)
    · exact .search hi hidx (.inl rfl) hl hj hs
    · exact .missing hi hidx hl hx

/-- C150: without an index, `shape(i)` is the i-th of `shapes()`, with attributes or without. -/
theorem C150_without_index_partial {r : Reader D} (hshx : r.shx = none) {l : List (Shape D)} (hl : Shapes D r.noM r.shp 100 (.ok l))
    (hn : r.numRecords = none ∨ r.numRecords = some l.length) {i : Nat} {s : Shape D} (hi : l[i]? = some s) (res : Py (Reader D × Shape D)) :
    Reader.Shape r i res ↔ res = .ok (r, s) := by
  have hil : i < l.length := (List.getElem?_eq_some_iff.mp hi).1
  have hrest : restrictIndex r.numRecords i = .ok (i : Int) := by
    rcases hn with hn | hn
    · rw [hn]; rfl
    · rw [hn]
      match hk : l.length with
      | 0 => omega
      | k + 1 =>
        simp only [restrictIndex]
        rw [if_neg (by simp; omega), if_neg (by omega)]
  rw [shape_search hshx hrest hl]
  simp only [Int.natCast_nonneg, true_and, Int.toNat_natCast, hi]
  constructor
  · rintro (⟨s', hs, rfl⟩ | ⟨h, -⟩)
    · cases hs; rfl
    · rcases h with h | h
      · omega
      · cases h
  · rintro rfl
    exact .inl ⟨s, rfl, rfl⟩

/-- C150 fails: shapes alone cannot be counted from the end, and an index that is too large is reported by a `TypeError`. -/
theorem C150_shapes_alone_violated {r : Reader D} (hshx : r.shx = none) (hn : r.numRecords = none) {l : List (Shape D)}
    (hl : Shapes D r.noM r.shp 100 (.ok l)) {i : Int} (hi : i < 0 ∨ (l.length : Int) ≤ i) (res : Py (Reader D × Shape D)) :
    Reader.Shape r i res ↔ res = .error .typeError := by
  rw [shape_search hshx (j := i) (by rw [hn]; rfl) hl]
  have hx : i < 0 ∨ l[i.toNat]? = none := by
    rcases hi with hi | hi
    · exact .inl hi
    · right; rw [List.getElem?_eq_none_iff]; omega
  constructor
  · rintro (⟨s, hj, hs, -⟩ | ⟨-, rfl⟩)
    · rcases hx with hx | hx
      · omega
      · rw [hx] at hs; cases hs
    · rfl
  · rintro rfl
    exact .inr ⟨hx, rfl⟩

/-- The shapes of the example file alone: two polygons from 100 and 272 on. -/
example : ∃ (shp : List Byte) (r : Reader Toy) (l : List (Shape Toy)), exampleWriter.saveShp.map Prod.snd = .ok shp ∧ Reader.new shp none none = .ok r ∧ Shapes Toy r.noM r.shp 100 (.ok l) ∧ l.length = 2 := by
  cases h : exampleWriter.saveShp with
  | error e => exact absurd (by rw [h]; rfl) (show ¬ (exampleWriter.saveShp).toOption.isSome = false by decide +kernel)
  | ok p =>
    obtain ⟨w', shp⟩ := p
    obtain ⟨t, n, m, hd, rs, hft, -, hsz, hm, hhd, hdata, hrecs, -, -, hhead⟩ := saveShp_ok h
    have ht : t = 5 := by
      have h5 : fileType exampleWriter = some 5 := by decide +kernel
      rw [h5] at hft; cases hft; rfl
    refine ⟨shp, { shp := shp, shx := none, numRecords := none, measure := m }, ?_⟩
    obtain ⟨outs, hs, hall⟩ := hrecs.shapes (t := t) (by rw [ht]; simp [Plain]) rfl ({ shp := shp, shx := none, numRecords := none, measure := m } : Reader Toy).noM hd
    refine ⟨outs, rfl, ?_, ?_, ?_⟩
    · simp only [Reader.new, hhead, ok_bind]; rfl
    · rw [← hdata, hhd] at hs; exact hs
    · rw [← hall.length_eq]; decide +kernel

/-! ### C151 -/

/-- C151, what holds: a reader that was not asked for single shapes reads the shapes of the new file as a new reader does, if the numbers of
records are the same. Missing: other numbers, the index and the attributes, see below. -/
theorem C151_load_partial {r : Reader D} (h0 : r.offsets = []) (shp : List Byte) (shx : Option (List Byte)) :
    r.load shp shx = Reader.new shp shx r.numRecords := by
  simp only [Reader.load, Reader.new, h0]

/-- `shapes()` reads the new file in any case. -/
theorem C151_shapes_partial {r r' : Reader D} {shp : List Byte} {shx : Option (List Byte)} (h : r.load shp shx = .ok r') :
    ∃ q : Reader D, Reader.new shp shx none = .ok q ∧ ∀ res, Shapes D r'.noM r'.shp 100 res ↔ Shapes D q.noM q.shp 100 res := by
  simp only [Reader.load, Py.bind_ok] at h
  obtain ⟨⟨l, t, m⟩, hm, h⟩ := h
  cases h
  refine ⟨{ shp := shp, shx := shx, numRecords := none, measure := m }, ?_, fun _ => Iff.rfl⟩
  simp only [Reader.new, hm, ok_bind]; rfl

/-- C151 fails: once single shapes were asked for, `shape(i)` goes to the place the old index tells; the new index is not read. -/
theorem C151_index_violated {r r' : Reader D} {shp shx : List Byte} (h : r.load shp (some shx) = .ok r') (hne : r.offsets ≠ []) {i : Nat} {o : Int}
    (hi : restrictIndex r.numRecords i = .ok (i : Int)) (ho : r.offsets[i]? = some o) (hpos : 0 < o) (res : Py (Reader D × Shape D)) :
    Reader.Shape r' i res ↔ res = (shapeAt r'.noM shp o.toNat).map (fun p => ({ r' with pos := p.2 }, p.1)) := by
  simp only [Reader.load, Py.bind_ok] at h
  obtain ⟨⟨l, t, m⟩, hm, h⟩ := h
  cases h
  generalize hr' : ({ r with shp := shp, shx := some shx, measure := m, pos := 100 } : Reader D) = r'
  have e1 : r'.numRecords = r.numRecords := by rw [← hr']
  have e2 : r'.shp = shp := by rw [← hr']
  have hidx : r'.shapeIndex i = .ok (r', some o) := by
    have hp : pyIndex r.offsets (i : Int) = .ok o := by
      simp only [pyIndex, if_neg (by omega : ¬ (i : Int) < 0), Int.natCast_nonneg, if_true, Int.toNat_natCast, ho]
    rw [← hr']
    simp only [Reader.shapeIndex, Reader.allOffsets, if_neg hne, ok_bind, hp]
    rfl
  have hi' : restrictIndex r'.numRecords i = .ok (i : Int) := by rw [e1]; exact hi
  have key : (do
        let (s, next) ← shapeAt (D := D) r'.noM r'.shp o.toNat
        return (({ r' with pos := next } : Reader D), s)) = (shapeAt r'.noM shp o.toNat).map (fun p => ({ r' with pos := p.2 }, p.1)) := by
    rw [e2]
    cases shapeAt (D := D) r'.noM shp o.toNat <;> rfl
  rw [← key]
  constructor
  · intro h
    cases h with
    | range h => rw [hi'] at h; cases h
    | index h h' => rw [hi'] at h; cases h; rw [hidx] at h'; cases h'
    | found h h' h'' => rw [hi'] at h; cases h; rw [hidx] at h'; cases h'; rfl
    | before h h' h'' => rw [hi'] at h; cases h; rw [hidx] at h'; cases h'; omega
    | search h h' h'' =>
      rw [hi'] at h; cases h; rw [hidx] at h'; cases h'
      rcases h'' with h'' | h''
      · cases h''
      · cases h''; omega
    | missing h h' => rw [hi'] at h; cases h; rw [hidx] at h'; cases h'
  · rintro rfl
    exact .found hi' hidx hpos

/-- A reader of two points loads the file of two polygons: the index it uses is the one of the points, the second polygon is at 272. -/
example : (do
    let (_, shp1, shx1) ← (Writer.point (Writer.point { shapeType := some 1 } (toy 1) (toy 2) 0 0) (toy 3) (toy 4) 0 0).save
    let (_, shp2, shx2) ← exampleWriter.save
    let r ← Reader.new (D := Toy) shp1 (some shx1) (some 2)
    let (r, _) ← r.shapeIndex 1
    let r ← r.load shp2 (some shx2)
    return (r.offsets, ← shxOffsets shx2, ← restrictIndex r.numRecords 1)) = (.ok ([100, 128], [100, 272], 1) : Py (List Int × List Int × Int)) := by
  decide +kernel

end

end Shapefile

namespace Dbf

open Shapefile (over above start_above write_above write_end File)

/-- C149: the same for the attributes. -/
theorem C149_records_over (w : Writer) (y m d : Int) (f : File) :
    (w.saveDbfInto y m d f).map (fun r => (r.1, r.2.data)) = (w.saveDbf y m d).map (fun r => (r.1, over f.data r.2)) := by
  simp only [Writer.saveDbfInto, Writer.saveDbf]
  cases header y m d (dropDeletion w.fields.length 0 w.fields) w.records.length with
  | error e => rfl
  | ok h =>
  simp only [Shapefile.ok_bind]
  cases w.records.mapM (writeRecord (dropDeletion w.fields.length 0 w.fields)) with
  | error e => rfl
  | ok rs =>
  show Except.ok _ = Except.ok _
  rw [start_above, write_above (by simp), write_end (by simp)]
  rfl

/-- A reader of a file with more bytes at the end. -/
def Reader.ext (r : Reader) (rest : List Byte) : Reader := { r with data := r.data ++ rest }

theorem read_ext {r : Reader} {n : Nat} (h : (r.read n).1.length = n) (rest : List Byte) :
    (r.ext rest).read n = ((r.read n).1, (r.read n).2.ext rest) := by
  have e : (r.ext rest).data.drop r.pos = r.data.drop r.pos ++ rest.drop (r.pos - r.data.length) := by simp [Reader.ext, List.drop_append]
  have e2 : ((r.ext rest).data.drop r.pos).take n = (r.data.drop r.pos).take n := by
    rw [e, List.take_append_of_le_length]
    simp only [Reader.read, List.length_take, List.length_drop] at h ⊢
    omega
  simp only [Reader.read]
  rw [show (r.ext rest).pos = r.pos from rfl, e2]
  rfl

theorem length_ext {r r' : Reader} (h : r.length = .ok r') (rest : List Byte) : (r.ext rest).length = .ok (r'.ext rest) := by
  unfold Reader.length at *
  rw [show (r.ext rest).headerLength = r.headerLength from rfl]
  split at h
  · rename_i h0
    rw [if_pos h0]
    by_cases hl : (r.read 32).1.length = 32
    · simp only [hl, if_true] at h
      cases h
      simp only [read_ext hl, hl, if_true]
      rfl
    · simp only [hl, if_false] at h
      cases h
  · rename_i h0
    rw [if_neg h0]
    cases h
    rfl

theorem readField_ext {r r' : Reader} {f : Field} (h : r.readField = .ok (f, r')) (rest : List Byte) :
    (r.ext rest).readField = .ok (f, r'.ext rest) := by
  unfold Reader.readField at *
  by_cases hl : (r.read 32).1.length = 32
  · simp only [hl, if_true, Py.bind_ok] at h
    obtain ⟨n, hn, t, ht, h⟩ := h
    cases h
    simp only [read_ext hl, hl, if_true, hn, ht, Shapefile.ok_bind]
    rfl
  · simp only [hl, if_false] at h
    cases h

theorem readFields_ext {n : Nat} {r r' : Reader} {fs : List Field} (h : Reader.readFields n r = .ok (fs, r')) (rest : List Byte) :
    Reader.readFields n (r.ext rest) = .ok (fs, r'.ext rest) := by
  induction n generalizing r fs with
  | zero => cases h; rfl
  | succ n ih =>
    simp only [Reader.readFields, Py.bind_ok] at h
    obtain ⟨⟨f, r1⟩, h1, ⟨fs1, r2⟩, h2, h⟩ := h
    cases h
    simp only [Reader.readFields, readField_ext h1, ih h2, Shapefile.ok_bind]
    rfl

theorem header_ext {r r' : Reader} (h : r.header = .ok r') (rest : List Byte) : (r.ext rest).header = .ok (r'.ext rest) := by
  simp only [Reader.header, Py.bind_ok] at h
  obtain ⟨r1, h1, ⟨fs, r2⟩, h2, u, h3, h⟩ := h
  have ht : (r2.read 1).1 = [13] := by
    by_contra hc
    simp [pyAssert, hc] at h3
  have e := read_ext (r := r2) (n := 1) (by rw [ht]; rfl) rest
  cases h
  simp only [Reader.header, length_ext h1, Shapefile.ok_bind]
  rw [show (r1.ext rest).headerLength = r1.headerLength from rfl]
  simp only [readFields_ext h2, Shapefile.ok_bind, e, h3]
  rfl

theorem again_ext {r r' : Reader} (h : r.again = .ok r') (rest : List Byte) : (r.ext rest).again = .ok (r'.ext rest) := by
  unfold Reader.again at *
  rw [show (r.ext rest).numRecords = r.numRecords from rfl]
  split at h
  · rename_i h0; rw [if_pos h0]; exact header_ext h rest
  · rename_i h0; rw [if_neg h0]; cases h; rfl

section
variable {F : Type} (pyFloat : List Byte → Py F)

theorem next_ext {r r' : Reader} {x : Option (List (Value F))} (h : r.next pyFloat = .ok (r', x)) (rest : List Byte) :
    (r.ext rest).next pyFloat = .ok (r'.ext rest, x) := by
  simp only [Reader.next, Py.bind_ok] at h
  obtain ⟨r1, h1, h⟩ := h
  simp only [Reader.next, again_ext h1, Shapefile.ok_bind]
  rw [show (r1.ext rest).recSize = r1.recSize from rfl]
  by_cases hl : (r1.read r1.recSize).1.length = r1.recSize
  · simp only [hl, if_true, Py.bind_ok] at h
    obtain ⟨v, hv, h⟩ := h
    cases h
    simp only [read_ext hl, hl, if_true]
    rw [show (r1.ext rest).fields = r1.fields from rfl, hv]
    rfl
  · simp only [hl, if_false] at h
    cases h

theorem loop_ext {n : Nat} {r r' : Reader} {xs : List (List (Value F))} (h : Reader.loop pyFloat n r = .ok (r', xs)) (rest : List Byte) :
    Reader.loop pyFloat n (r.ext rest) = .ok (r'.ext rest, xs) := by
  induction n generalizing r xs with
  | zero => cases h; rfl
  | succ n ih =>
    simp only [Reader.loop, Py.bind_ok] at h
    obtain ⟨⟨r1, x⟩, h1, ⟨r2, xs1⟩, h2, h⟩ := h
    cases h
    simp only [Reader.loop, next_ext pyFloat h1, ih h2, Shapefile.ok_bind]
    rfl

/-- C149: what older records leave behind the new ones does not matter: records that can be read are read the same. -/
theorem C149_records_partial {data : List Byte} {r r' : Reader} {xs : List (List (Value F))} (hr : Reader.new data = .ok r)
    (h : r.records pyFloat = .ok (r', xs)) (rest : List Byte) :
    ∃ q q', Reader.new (data ++ rest) = .ok q ∧ q.fields = r.fields ∧ q.records pyFloat = .ok (q', xs) := by
  refine ⟨r.ext rest, r'.ext rest, header_ext hr rest, rfl, ?_⟩
  simp only [Reader.records, Py.bind_ok] at h
  obtain ⟨r1, h1, r2, h2, h⟩ := h
  simp only [Reader.records, again_ext h1, length_ext h2, Shapefile.ok_bind]
  exact loop_ext pyFloat h rest

end

/-! ### C151 -/

theorem read_pos {r : Reader} {n : Nat} (h : (r.read n).1.length = n) : (r.read n).2 = { r with pos := r.pos + n } := by
  simp only [Reader.read] at *
  rw [h]

theorem readField_pos {r r' : Reader} {f : Field} (h : r.readField = .ok (f, r')) : r' = { r with pos := r.pos + 32 } := by
  unfold Reader.readField at h
  by_cases hl : (r.read 32).1.length = 32
  · simp only [hl, if_true, Py.bind_ok] at h
    obtain ⟨n, hn, t, ht, h⟩ := h
    cases h
    exact read_pos hl
  · simp only [hl, if_false] at h
    cases h

theorem readFields_pos {n : Nat} {r r' : Reader} {fs : List Field} (h : Reader.readFields n r = .ok (fs, r')) :
    r' = { r with pos := r.pos + 32 * n } := by
  induction n generalizing r fs with
  | zero => cases h; rfl
  | succ n ih =>
    simp only [Reader.readFields, Py.bind_ok] at h
    obtain ⟨⟨f, r1⟩, h1, ⟨fs1, r2⟩, h2, h⟩ := h
    cases h
    rw [ih h2, readField_pos h1]
    simp only [Reader.mk.injEq, true_and, and_true]
    omega

theorem load_ok {r r' : Reader} {data : List Byte} {n : Nat} (hr : r.headerLength = 32 * n + 33) (h : r.load data = .ok r') : data[32 * n]? = some 13 := by
  simp only [Reader.load, Reader.header, Py.bind_ok] at h
  obtain ⟨r1, h1, ⟨fs, r2⟩, h2, u, h3, h⟩ := h
  have ht : (r2.read 1).1 = [13] := by
    by_contra hc
    simp [pyAssert, hc] at h3
  rw [Reader.length, if_neg (by show ¬ r.headerLength = 0; omega)] at h1
  cases h1
  have e : ((r.headerLength : Int) - 33) / 32 = n := by omega
  rw [show ({ r with data := data, pos := 0 } : Reader).headerLength = r.headerLength from rfl, e, Int.toNat_natCast] at h2
  rw [readFields_pos h2] at ht
  simp only [Reader.read, Nat.zero_add] at ht
  have := congrArg List.head? ht
  rwa [List.head?_take, if_neg (by omega), List.head?_drop] at this

theorem enc_head {c : Char} {cs : Str} (hc : c ≠ '\r') : ∃ x xs, enc (c :: cs) = x :: xs ∧ x ≠ 13 := by
  have h13 : c.toNat ≠ 13 := fun h => hc (by rw [← ofNat_toNat c, h])
  simp only [enc, List.map_cons, List.flatMap_cons, utf8Enc1]
  split
  · exact ⟨_, _, rfl, h13⟩
  · split
    · exact ⟨_, _, rfl, by omega⟩
    · split
      · exact ⟨_, _, rfl, by omega⟩
      · exact ⟨_, _, rfl, by omega⟩

theorem packName_head {name : Str} (h : name.head? ≠ some '\r') : ∃ x xs, packName name = x :: xs ∧ x ≠ 13 := by
  cases name with
  | nil => exact ⟨0, List.replicate 10 0, by decide, by decide⟩
  | cons c cs =>
    obtain ⟨x, xs, hx, h13⟩ := enc_head (c := c) (cs := cs) (by simpa using h)
    simp only [packName, hx, replaceByte, List.map_cons, List.cons_append, List.take_succ_cons]
    refine ⟨_, _, rfl, ?_⟩
    split
    · decide
    · exact h13

theorem header_no_end {y m d : Int} {fields : List Field} {n : Nat} {h : List Byte} (hh : header y m d fields n = .ok h)
    (hn : ∀ f ∈ fields, f.name.head? ≠ some '\r') {k : Nat} (hk : k ≤ fields.length) (rest : List Byte) : (h ++ rest)[32 * k]? ≠ some 13 := by
  cases k with
  | zero =>
    simp only [header, Py.bind_ok] at hh
    obtain ⟨bv, hv, by', hy, bm, hm, bd, hd, bn, hn, bh, hbh, br, hr, ds, hds, hh⟩ := hh
    cases hh
    obtain ⟨rfl, -, -⟩ := packL_one hv
    simp
  | succ k =>
    obtain ⟨a, ds, hds, rfl, ha, -, -, -⟩ := header_ok hh
    rw [Py.mapM_ok] at hds
    have hlen : ds.length = fields.length := hds.length_eq.symm
    have hrows : ∀ r ∈ ds, r.length = 32 := by
      intro r hr
      obtain ⟨i, hi, rfl⟩ := List.mem_iff_getElem.mp hr
      have hi' : i < fields.length := by omega
      obtain ⟨c, -, -, -, -, -, -, hl, -⟩ := descriptor_ok (List.Forall₂.get hds hi' hi)
      exact hl
    have hk' : k < ds.length := by omega
    obtain ⟨c, -, -, -, -, -, -, -, ht, -⟩ := descriptor_ok (List.Forall₂.get hds (by omega : k < fields.length) hk')
    obtain ⟨x, xs, hx, h13⟩ := packName_head (hn (fields[k]'(by omega)) (List.getElem_mem _))
    have hd : (a ++ (ds.flatten ++ [13]) ++ rest).drop (32 * (k + 1)) = (ds.drop k).flatten ++ ([13] ++ rest) := by
      rw [List.append_assoc, List.append_assoc, show 32 * (k + 1) = a.length + 32 * k by omega, ← List.drop_drop, List.drop_left,
        List.drop_append_of_le_length, Shapefile.flatten_drop hrows]
      have := congrArg List.length (Shapefile.flatten_drop hrows k)
      have hl2 : ds.flatten.length = 32 * ds.length := by
        rw [List.length_flatten]
        have : ds.map List.length = List.replicate ds.length 32 := by
          rw [List.eq_replicate_iff]
          refine ⟨by simp, ?_⟩
          intro b hb
          obtain ⟨r, hr, rfl⟩ := List.mem_map.mp hb
          exact hrows r hr
        rw [this]; simp; omega
      omega
    rw [← List.head?_drop, hd, List.drop_eq_getElem_cons hk']
    have hne : ds[k] ≠ [] := by
      intro he
      rw [List.get_eq_getElem, List.get_eq_getElem, he] at ht
      simp [hx] at ht
    obtain ⟨z, zs, hz⟩ := List.exists_cons_of_ne_nil hne
    rw [List.get_eq_getElem, List.get_eq_getElem, hz, hx] at ht
    have : z = x := by simpa using congrArg List.head? ht
    simp only [hz, List.flatten_cons, List.cons_append, List.head?_cons, this]
    simpa using h13

/-- C151 fails: loading a second data set with as many fields as the first one or more raises, always. -/
theorem C151_fields_violated {w1 w1' w2 w2' : Writer} {y1 m1 d1 y2 m2 d2 : Int} {dbf1 dbf2 : List Byte} (h1 : w1.saveDbf y1 m1 d1 = .ok (w1', dbf1))
    (h2 : w2.saveDbf y2 m2 d2 = .ok (w2', dbf2)) (hn1 : ∀ f ∈ w1'.fields, Ascii f.name) (hn2 : ∀ f ∈ w2'.fields, f.name.head? ≠ some '\r')
    (hle : w1'.fields.length ≤ w2'.fields.length) {r0 r : Reader} (hr0 : Reader.new dbf1 = .ok r0) (hr : r.headerLength = r0.headerLength) :
    ∃ e, r.load dbf2 = .error e := by
  simp only [Writer.saveDbf, Py.bind_ok] at h1 h2
  obtain ⟨b1, hb1, rs1, -, h1⟩ := h1
  obtain ⟨b2, hb2, rs2, -, h2⟩ := h2
  cases h1
  cases h2
  obtain ⟨hl, hnew⟩ := new_ok hb1 hn1 rs1.flatten
  rw [hnew] at hr0
  cases hr0
  cases hload : r.load (b2 ++ rs2.flatten) with
  | error e => exact ⟨e, rfl⟩
  | ok r' => exact absurd (load_ok (hr.trans hl) hload) (header_no_end hb2 hn2 hle _)

/-- Two data sets of one field. -/
example : (do
    let (_, d1) ← Writer.saveDbf { fields := [exampleField 5], records := [[.text ['x']]] } 126 11 16
    let (_, d2) ← Writer.saveDbf { fields := [exampleField 4], records := [[.text ['y']]] } 126 11 16
    let r ← Reader.new d1
    r.load d2) = .error .assertionError := by
  decide +kernel

end Dbf
end Coral
