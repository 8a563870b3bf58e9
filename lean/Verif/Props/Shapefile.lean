import Verif.Proofs.Shapefile
import Mathlib.Order.Basic
import Mathlib.Data.Int.Order.Basic

/-!
# Properties of the geometry files (C84–C87, C90, C91, C94–C96)
-/
namespace Coral
namespace Shapefile

set_option linter.unusedSectionVars false

/-! ### Floats for the examples: integers of 64 bits -/

/-- Numbers that fit eight bytes. -/
abbrev Toy := { k : Int // -9223372036854775808 ≤ k ∧ k ≤ 9223372036854775807 }

/-- Back from eight bytes. -/
def toyDec (bs : List Byte) : Toy :=
  if h : -9223372036854775808 ≤ (leVal bs : Int) - 9223372036854775808 ∧ (leVal bs : Int) - 9223372036854775808 ≤ 9223372036854775807
  then ⟨(leVal bs : Int) - 9223372036854775808, h⟩ else ⟨0, by decide⟩

instance : Double Toy where
  toLinearOrder := inferInstance
  zero := ⟨0, by decide⟩
  enc k := leBytes 8 (k.1 + 9223372036854775808).toNat
  dec := toyDec
  noData := ⟨-1000000, by decide⟩
  enc_length _ := by simp [leBytes, beBytes_length]
  dec_enc := by
    intro k
    obtain ⟨k, h1, h2⟩ := k
    have hv : (leVal (leBytes 8 (k + 9223372036854775808).toNat) : Int) = k + 9223372036854775808 := by
      simp only [leVal, leBytes, List.reverse_reverse, beVal_beBytes]
      have : (256 : Nat) ^ 8 = 18446744073709551616 := by decide
      rw [this]
      omega
    simp only [toyDec, hv]
    rw [dif_pos (by omega)]
    congr 1
    omega

/-- A small number. -/
def toy (k : Int) (h : -9223372036854775808 ≤ k ∧ k ≤ 9223372036854775807 := by decide) : Toy := ⟨k, h⟩

section
variable {D : Type} [Double D]

/-! ### C84 -/

/-- C84: what `saveShp` wrote is read back by `shapes()`: as many shapes, in order, each with the type of the file, its parts and the x and
y of its points (the first point for the point types). -/
theorem C84_saved_shapes_read_back {w w' : Writer D} {shp : List Byte} (h : w.saveShp = .ok (w', shp)) {t : Int}
    (hft : fileType w = some t) (ht : Plain t) (shx : Option (List Byte)) (numRecords : Option Nat) :
    ∃ (r : Reader D) (outs : List (Shape D)), Reader.new shp shx numRecords = .ok r ∧ r.shp = shp ∧
      (∀ res, Shapes D r.noM r.shp 100 res ↔ res = .ok outs) ∧ List.Forall₂ (Same t) w.shapes outs := by
  obtain ⟨t', n, m, hd, rs, hft', -, -, -, hhd, rfl, hrecs, -, -, hhead⟩ := saveShp_ok h
  rw [hft] at hft'
  cases hft'
  refine ⟨{ shp := hd ++ rs.flatten, shx := shx, numRecords := numRecords, measure := m }, ?_⟩
  obtain ⟨outs, hs, hall⟩ := hrecs.shapes ht rfl (decide ((0 : D) ∈ m)) hd
  rw [hhd] at hs
  refine ⟨outs, ?_, rfl, ?_, hall.imp (fun _ _ h => h.1)⟩
  · simp only [Reader.new, hhead, ok_bind]
    rfl
  · intro res
    exact ⟨fun hr => Shapes.det hr hs, fun hr => by rw [hr]; exact hs⟩

/-- C84: saving works for every non-empty list of shapes that fit the type of the file, as long as the file length can be written. -/
theorem C84_saving_works {w : Writer D} {t : Int} (hft : fileType w = some t) (ht : Plain t) (hne : w.shapes ≠ [])
    (h : ∀ s ∈ w.shapes, Fine t s) (hsize : 100 + (w.shapes.map (recordSize t)).sum ≤ 4294967294) : ∃ w' shp, w.saveShp = .ok (w', shp) :=
  saveShp_of hft ht hne h hsize

/-- C84: `point()` makes shapes that fit point and multipoint files. -/
theorem C84_points_fit (w : Writer D) (x y z m : D) {t : Int} (ht : t = 1 ∨ t = 8 ∨ t = 11 ∨ t = 21) :
    ∃ s, (w.point x y z m).shapes = w.shapes ++ [s] ∧ Fine t s ∧ planar t s.points = [[x, y]] := by
  refine ⟨_, rfl, ⟨fun _ => ⟨rfl, rfl⟩, ⟨by simp, by simp⟩, ?_⟩, ?_⟩
  · rintro (h | h | h | h) <;> omega
  · simp only [planar]
    split <;> rfl

/-- C84: `poly()` (and `line()`) makes shapes that fit files with parts and multipoint files. -/
theorem C84_polys_fit {w w' : Writer D} {parts : List (List (List D))} {kind : Int} (h : w.poly parts kind = .ok w')
    (hne : ∃ p ∈ parts, p ≠ []) {t : Int} (ht : t = 8 ∨ Parted t) : ∃ s, w'.shapes = w.shapes ++ [s] ∧ Fine t s := by
  obtain ⟨rings, s, rfl, -, hz, hm, hr, hp, hs⟩ := poly_ok h
  refine ⟨s, rfl, fun _ => ⟨hz, hm⟩, ⟨?_, ?_⟩, fun _ => ⟨_, hs, ?_⟩⟩
  · obtain ⟨p, hpm, hpn⟩ := hne
    have : ∃ q ∈ rings, q ≠ [] := by
      split at hr
      · obtain ⟨j, hj, rfl⟩ := List.mem_iff_getElem.mp hpm
        have hj' : j < rings.length := by rw [← hr.length_eq]; exact hj
        exact ⟨rings[j], List.getElem_mem _, (List.Forall₂.get hr hj hj').1⟩
      · exact ⟨p, by rw [hr]; exact hpm, hpn⟩
    obtain ⟨q, hq, hqn⟩ := this
    intro he
    rw [hp] at he
    have := List.flatten_eq_nil_iff.mp he (q.map four) (List.mem_map_of_mem hq)
    exact hqn (by simpa using this)
  · intro p hpp
    rw [hp] at hpp
    obtain ⟨l, hl, hpl⟩ := List.mem_flatten.mp hpp
    obtain ⟨q, -, rfl⟩ := List.mem_map.mp hl
    obtain ⟨a, -, rfl⟩ := List.mem_map.mp hpl
    exact four_length a
  · intro v hv
    have := offsetsOf_range 0 (rings.map (List.map four)) v (by rw [offsetsOf_map]; exact hv)
    rw [← hp] at this
    omega

/-- Two polygons, one with a hole, in a polygon file: saved and read. -/
def exampleWriter : Writer Toy :=
  match (Writer.poly { shapeType := some 5 } [[[toy 0, toy 0], [toy 0, toy 9], [toy 9, toy 9]], [[toy 1, toy 2], [toy 2, toy 2], [toy 1, toy 2]]] 5 >>=
    fun w => w.poly [[[toy (-3), toy 4], [toy 5, toy 6], [toy (-3), toy 4]]] 5) with
  | .ok w => w
  | .error _ => {}

example : exampleWriter.shapes.length = 2 ∧ fileType exampleWriter = some 5 ∧ Plain 5 ∧ (exampleWriter.saveShp).toOption.isSome = true := by
  refine ⟨by decide +kernel, by decide +kernel, by simp [Plain], by decide +kernel⟩

/-! ### C85 -/

/-- What stays of a reader through its uses: only the cached offsets come and the position moves. -/
theorem uses_inv {r0 r : Reader D} (h : Uses r0 r) {shx : List Byte} {offs : List Int} (hshx : r0.shx = some shx) (hoffs : shxOffsets shx = .ok offs)
    (h0 : r0.offsets = []) :
    r.shp = r0.shp ∧ r.shx = r0.shx ∧ r.numRecords = r0.numRecords ∧ r.measure = r0.measure ∧ (r.offsets = [] ∨ r.offsets = offs) := by
  have key : ∀ {r1 r2 : Reader D} {j : Int} {o : Option Int}, r1.shx = some shx → (r1.offsets = [] ∨ r1.offsets = offs) →
      r1.shapeIndex j = .ok (r2, o) → r2 = { r1 with offsets := offs } := by
    intro r1 r2 j o h1 h2 h
    have ha : r1.allOffsets shx = .ok offs := by
      rcases h2 with h2 | h2
      · simp [Reader.allOffsets, h2, hoffs]
      · simp only [Reader.allOffsets, h2]
        split <;> simp [hoffs]
    simp only [Reader.shapeIndex, h1, ha, Py.bind_ok] at h
    obtain ⟨x, hx, v, hv, h⟩ := h
    cases hx
    cases h
    rw [h1]
  induction h with
  | refl => exact ⟨rfl, rfl, rfl, rfl, Or.inl h0⟩
  | shape h1 h2 ih =>
    obtain ⟨i1, i2, i3, i4, i5⟩ := ih
    generalize hres : (Except.ok _ : Py (Reader D × Shape D)) = res at h2
    cases h2 with
    | range => cases hres
    | index => cases hres
    | found hr hi ho =>
      obtain ⟨⟨s, next⟩, -, hres⟩ := Py.bind_ok.mp hres.symm
      cases hres
      rw [key (i2.trans hshx) i5 hi]
      exact ⟨i1, i2, i3, i4, Or.inr rfl⟩
    | before => cases hres
    | search hr hi =>
      cases hres
      rw [key (i2.trans hshx) i5 hi]
      exact ⟨i1, i2, i3, i4, Or.inr rfl⟩
    | missing => cases hres
  | shapes pos h1 ih => exact ih

/-- Asking for a shape by its number, once the index is known to be right. -/
theorem shape_by_index {r : Reader D} {shx : List Byte} {offs : List Int} (hshx : r.shx = some shx) (hoffs : shxOffsets shx = .ok offs)
    (hc : r.offsets = [] ∨ r.offsets = offs) {i j : Int} (hi : restrictIndex r.numRecords i = .ok j) (hj : 0 ≤ j) {o : Int}
    (ho : offs[j.toNat]? = some o) (hpos : 0 < o) {s : Shape D} {next : Nat} (hat : shapeAt r.noM r.shp o.toNat = .ok (s, next))
    (res : Py (Reader D × Shape D)) : Reader.Shape r i res ↔ res = .ok ({ r with offsets := offs, pos := next }, s) := by
  have hidx : r.shapeIndex j = .ok ({ r with offsets := offs }, some o) := by
    have hp : pyIndex offs j = .ok o := by
      simp only [pyIndex, if_neg (by omega : ¬ j < 0), hj, if_true, ho]
    have ha : r.allOffsets shx = .ok offs := by
      rcases hc with h2 | h2
      · simp [Reader.allOffsets, h2, hoffs]
      · simp only [Reader.allOffsets, h2]
        split <;> simp [hoffs]
    simp only [Reader.shapeIndex, hshx, ha, ok_bind, hp]
    rfl
  constructor
  · intro h
    cases h with
    | range h => rw [hi] at h; cases h
    | index h h' => rw [hi] at h; cases h; rw [hidx] at h'; cases h'
    | found h h' h'' =>
      rw [hi] at h; cases h; rw [hidx] at h'; cases h'
      rw [hat]
      rfl
    | before h h' h'' => rw [hi] at h; cases h; rw [hidx] at h'; cases h'; omega
    | search h h' h'' =>
      rw [hi] at h; cases h; rw [hidx] at h'; cases h'
      rcases h'' with h'' | h''
      · cases h''
      · cases h''; omega
    | missing h h' => rw [hi] at h; cases h; rw [hidx] at h'; cases h'
  · rintro rfl
    have := Reader.Shape.found hi hidx hpos
    rw [hat] at this
    exact this

/-- C85: after `save()`, `shape(i)` gives the i-th of `shapes()`, for every i and whatever the reader was used for before; for files of any
type that can be read. -/
theorem C85_random_access {w w' : Writer D} {shp shx : List Byte} (h : w.save = .ok (w', shp, shx)) (h0 : w.offsets = [])
    {numRecords : Option Nat} (hn : numRecords = none ∨ numRecords = some w.shapes.length) {r0 r : Reader D}
    (hr0 : Reader.new shp (some shx) numRecords = .ok r0) (hr : Uses r0 r) {l : List (Shape D)} (hl : Shapes D r0.noM shp 100 (.ok l)) :
    l.length = w.shapes.length ∧ ∀ (i : Nat) (s : Shape D), l[i]? = some s →
      ∃ r', ∀ res, Reader.Shape r i res ↔ res = .ok (r', s) := by
  obtain ⟨t, n, m, hd, rs, hft, -, hm, hhd, rfl, hrecs, hoffs, hhead, hshx⟩ := save_all h (by simp [h0])
  rw [h0, List.nil_append, List.take_of_length_le (by rw [starts_length, hrecs.length_ss.1]; exact Nat.le_refl _)] at hshx
  have hr0e : r0 = { shp := hd ++ rs.flatten, shx := some shx, numRecords := numRecords, measure := m } := by
    simp only [Reader.new, hhead, ok_bind] at hr0
    exact (Except.ok.inj hr0).symm
  have hl' := hl
  rw [← hhd] at hl'
  have hlen := (hrecs.visits hd hl').1
  refine ⟨hlen, ?_⟩
  intro i s hi
  obtain ⟨offs, hoffs', hlen', hat⟩ := indexRight_of hrecs hhd hshx r0.noM l hl
  obtain ⟨u1, u2, u3, u4, u5⟩ := uses_inv hr (by rw [hr0e]) hoffs' (by rw [hr0e])
  have hil : i < l.length := (List.getElem?_eq_some_iff.mp hi).1
  obtain ⟨o, ho⟩ : ∃ o, offs[i]? = some o := ⟨_, List.getElem?_eq_getElem (by omega)⟩
  obtain ⟨hpos, s', next, hs', hsat⟩ := hat i o ho
  rw [hi] at hs'
  cases hs'
  have hrest : restrictIndex r.numRecords i = .ok (i : Int) := by
    rw [u3, hr0e]
    rcases hn with rfl | rfl
    · rfl
    · match hk : w.shapes.length with
      | 0 => omega
      | k + 1 =>
        simp only [restrictIndex]
        rw [if_neg (by simp; omega), if_neg (by omega)]
  refine ⟨_, fun res => shape_by_index (u2.trans (by rw [hr0e])) hoffs' u5 hrest (by omega) (by simpa using ho) hpos (next := next) ?_ res⟩
  have e1 : r.noM = r0.noM := by simp only [Reader.noM, u4]
  rw [e1, u1, hr0e]
  rw [hr0e] at hsat
  exact hsat

/-- The second polygon is at 272 in the file saved above, and saving again leaves the index as it is. -/
example : (do
    let (w, _, shx1) ← exampleWriter.save
    let (_, shp, shx) ← w.save
    let (s, _) ← shapeAt (D := Toy) true shp 272
    return (← shxOffsets shx1, ← shxOffsets shx, s.points)) =
    (.ok ([100, 272], [100, 272], [[toy (-3), toy 4], [toy 5, toy 6], [toy (-3), toy 4]]) : Py (List Int × List Int × List (List Toy))) := by
  decide +kernel

/-! ### C86 -/

/-- C86, what holds: saving once or again and again without changes in between, the index of the last files is right. Missing: additions
between saves, see below. -/
theorem C86_index_after_saves_partial {w w' : Writer D} {shp shx : List Byte} (h : Saves w w' shp shx) {t : Int} (hft : fileType w = some t)
    (ht : Plain t) (h0 : w.offsets = []) (noM : Bool) : IndexRight D noM shp shx :=
  (h.inv hft ht h0).1 noM

/-- C86 fails whenever shapes are added to a saved writer that has shapes, and it is saved again: asked for the first new shape, the reader
returns the first shape of the file. -/
theorem C86_violated_all {w w1 w2 : Writer D} {shp1 shx1 shp shx : List Byte} (h1 : w.save = .ok (w1, shp1, shx1)) (h0 : w.offsets = [])
    (hne : w.shapes ≠ []) {more : List (Shape D)} (hmore : more ≠ []) (h2 : ({ w1 with shapes := w1.shapes ++ more } : Writer D).save = .ok (w2, shp, shx))
    {r : Reader D} (hr : Reader.new shp (some shx) none = .ok r) {l : List (Shape D)} (hl : Shapes D r.noM shp 100 (.ok l)) :
    ∃ s r', l.head? = some s ∧ ∀ res, Reader.Shape r w.shapes.length res ↔ res = .ok (r', s) := by
  obtain ⟨t, n, m, hd, rs, hft, -, hm, hhd, rfl, hrecs, hoffs, hhead, hshx⟩ := save_all h1 (by simp [h0])
  rw [h0, List.nil_append] at hoffs
  obtain ⟨t', n', m', hd', rs', hft', -, hm', hhd', rfl, hrecs', hoffs', hhead', hshx'⟩ := save_all h2 (by
    rw [show ({ w1 with shapes := w1.shapes ++ more } : Writer D).offsets = w1.offsets from rfl, hoffs]
    exact hrecs.even 100 (by decide))
  have hlen1 := hrecs.length_ss
  have hlen2 := hrecs'.length_ss
  have hre : r = { shp := hd' ++ rs'.flatten, shx := some shx, numRecords := none, measure := m' } := by
    simp only [Reader.new, hhead', ok_bind] at hr
    exact (Except.ok.inj hr).symm
  have hl' := hl
  rw [← hhd'] at hl'
  obtain ⟨v1, v2, v3⟩ := hrecs'.visits hd' hl'
  rw [hhd'] at v2 v3
  have hmp : 0 < more.length := List.length_pos_iff.mpr hmore
  have hwp : 0 < w.shapes.length := List.length_pos_iff.mpr hne
  obtain ⟨rr, rrs, hrr⟩ : ∃ a b, rs' = a :: b := by
    match rs', hlen2.1 with
    | [], h => simp at h; omega
    | a :: b, _ => exact ⟨a, b, rfl⟩
  obtain ⟨s, next, hs, hat⟩ := v3 0 100 (by rw [hrr]; rfl)
  refine ⟨s, { r with offsets := _, pos := next }, by rw [List.head?_eq_getElem?]; exact hs, fun res =>
    shape_by_index (j := (w.shapes.length : Int)) (o := 100) (by rw [hre]) hshx' (Or.inl (by rw [hre])) (by rw [hre]; rfl) (by omega) ?_ (by omega) ?_ res⟩
  · have e : ({ w1 with shapes := w1.shapes ++ more } : Writer D).offsets = starts 100 rs := hoffs
    rw [e, Int.toNat_natCast, List.getElem?_map, List.getElem?_take_of_lt (by simp only [List.length_append]; omega),
      List.getElem?_append_right (by rw [starts_length, hlen1.1]; exact Nat.le_refl _), starts_length, hlen1.1, Nat.sub_self, hrr]
    rfl
  · rw [hre] at hat ⊢
    exact hat

/-- The hypotheses hold for a point file: one point saved, another added, saved again. The second entry of the index leads to the first
record, the second record is at 128. -/
example : (do
    let (w1, _, _) ← (Writer.point { shapeType := some 1 } (toy 1) (toy 2) 0 0).save
    let (_, shp, shx) ← (w1.point (toy 3) (toy 4) 0 0).save
    let (s, _) ← shapeAt (D := Toy) false shp 128
    return (← shxOffsets shx, s)) = (.ok ([100, 100], { shapeType := some 1, points := [[toy 3, toy 4]] }) : Py (List Int × Shape Toy)) := by
  decide +kernel

/-! ### C87 -/

/-- C87, what holds: the length in the header is the length of the file. Missing: the types with measures that the size leaves out. -/
theorem C87_length_matches_partial {w w' : Writer D} {shp : List Byte} (h : w.saveShp = .ok (w', shp)) {t : Int} (hft : fileType w = some t)
    (ht : t ≠ 13 ∧ t ≠ 15 ∧ t ≠ 18 ∧ t ≠ 28 ∧ t ≠ 31) : ∃ m, shpHeader (D := D) shp = .ok ((shp.length : Int), t, m) := by
  obtain ⟨t', n, m, hd, rs, hft', -, hn, -, hhd, rfl, hrecs, -, -, hhead⟩ := saveShp_ok h
  rw [hft] at hft'
  cases hft'
  obtain ⟨h1, h2⟩ := hrecs.size ht
  have hev := (sum_even (ss := w.shapes) t).1
  simp only [shpFileLength, sizesOf_eq ht h2 none, ok_bind] at hn
  have hn : (100 + (w.shapes.map (recordSize t)).sum) / 2 = n := Except.ok.inj hn
  refine ⟨m, ?_⟩
  rw [hhead]
  congr 2
  rw [List.length_append, h1, hhd]
  omega

theorem content_28 {s s' : Shape D} {bs : List Byte} (h : content s 28 = .ok (bs, s')) : bs.length = 52 + 8 * s.points.length := by
  simp only [content, body, Py.bind_ok] at h
  obtain ⟨b0, h0, b, ⟨b1, h1, b2, h2, b3, h3, b4, h4, b5, h5, b6, h6, b7, h7, b8, h8, b9, h9, hb⟩, ⟨bz, s1⟩, hz, ⟨bm, s2⟩, hm, h⟩ := h
  cases h
  cases hb
  cases hz
  cases hm
  cases h2
  cases h3
  cases h4
  cases h5
  cases h6
  cases h7
  cases h9
  simp only [writeIf, show (28 : Int) ∈ boxed by decide, show (28 : Int) ∈ measured by decide, if_true, Py.bind_ok] at h1 h8
  obtain ⟨box, hbox, h1⟩ := h1
  cases h1
  obtain ⟨m, hm, l, hl, h8⟩ := h8
  cases h8
  have e1 := encAll_length box
  have e2 := encAll_length m
  have l1 := bboxOf_length hbox
  have l2 := mboxOf_length hm
  have e3 : l.flatten.length = 8 * s.points.length := by
    rw [Py.mapM_ok] at hl
    clear * - hl
    generalize s.points = pts at hl ⊢
    induction hl with
    | nil => rfl
    | cons h _ ih =>
      simp only [packM] at h
      split at h
      · cases h
        simp [Double.enc_length, ih]
        omega
      · cases h
  simp only [List.length_append, List.length_nil, packI_length h0, e1, e2, e3, l1, l2]
  omega

theorem recs_28 {n : Nat} {ss ss' : List (Shape D)} {rs : List (List Byte)} (h : Recs (some 28) n ss rs ss') :
    rs.flatten.length = (ss.map (fun s => 60 + 8 * s.points.length)).sum := by
  generalize hw : (some 28 : Option Int) = w at h
  induction h with
  | nil => rfl
  | cons hr _ ih =>
    subst hw
    obtain ⟨t', bs, bn, bl, hty, hc, hn, hl, rfl⟩ := hr
    have hs : ∀ s : Shape D, retype (some 28) s = { s with shapeType := some 28 } := fun s => by simp [retype]
    rw [hs] at hty hc
    cases hty
    have := content_28 hc
    simp only [List.flatten_cons, List.length_append, packBI_length hn, packBI_length hl, ih, List.map_cons, List.sum_cons, this]
    omega

theorem sizesOf_28 (n : Option Nat) (ss : List (Shape D)) : sizesOf 28 n ss = .ok (44 * ss.length) := by
  induction ss generalizing n with
  | nil => rfl
  | cons s ss ih =>
    have : sizeOf 28 n s = .ok (44, lastParts n s) := rfl
    simp only [sizesOf, this, ok_bind, ih, List.length_cons, pure, Except.pure]
    congr 1
    omega

/-- C87 fails for every multipoint file with measures that has a shape: the length says less than what is there. -/
theorem C87_violated {w w' : Writer D} {shp : List Byte} (h : w.saveShp = .ok (w', shp)) (hft : fileType w = some 28) (hne : w.shapes ≠ []) :
    ∃ n m, shpHeader (D := D) shp = .ok (n, 28, m) ∧ n = 100 + 44 * w.shapes.length ∧
      shp.length = 100 + (w.shapes.map (fun s => 60 + 8 * s.points.length)).sum ∧ n < shp.length := by
  obtain ⟨t', n, m, hd, rs, hft', -, hn, -, hhd, rfl, hrecs, -, -, hhead⟩ := saveShp_ok h
  rw [hft] at hft'
  cases hft'
  have h1 := recs_28 hrecs
  simp only [shpFileLength, sizesOf_28, ok_bind] at hn
  have hn : (100 + 44 * w.shapes.length) / 2 = n := Except.ok.inj hn
  have hge : 60 * w.shapes.length ≤ (w.shapes.map (fun s => 60 + 8 * s.points.length)).sum := by
    clear * -
    induction w.shapes with
    | nil => simp
    | cons s ss ih => simp only [List.length_cons, List.map_cons, List.sum_cons]; omega
  have hpos : 0 < w.shapes.length := List.length_pos_iff.mpr hne
  refine ⟨_, m, hhead, by omega, ?_, ?_⟩
  · rw [List.length_append, h1, hhd]
  · rw [List.length_append, h1, hhd]; omega

/-- Such a file can be saved. -/
example : (Writer.point { shapeType := some 28 } (toy 1) (toy 2) 0 (toy 4)).saveShp.toOption.isSome = true := by decide +kernel

/-! ### C90 -/

/-- C90, what holds: with at least one record the indices above -n and below n are accepted and mean what they mean for lists, anything else
raises `IndexError`. Missing: -n itself, and files without records, see below. -/
theorem C90_indices_partial (n : Nat) (hn : 0 < n) (i : Int) :
    (-n < i ∧ i < n → restrictIndex (some n) i = .ok (if i < 0 then n + i else i)) ∧
    (¬ (-n < i ∧ i < n) → restrictIndex (some n) i = .error .indexError) := by
  obtain ⟨k, rfl⟩ : ∃ k, n = k + 1 := ⟨n - 1, by omega⟩
  refine ⟨fun h => ?_, fun h => ?_⟩
  · simp only [restrictIndex]
    rw [if_neg (by omega)]
    split
    · rename_i hi
      have hlen : ((List.range (k + 1)).map (fun k : Nat => (k : Int))).length = k + 1 := by simp
      simp only [pyIndex, hlen, if_pos hi]
      rw [if_pos (by omega), List.getElem?_map, List.getElem?_range (by omega)]
      simp only [Option.map_some]
      congr 1
      omega
    · rfl
  · simp only [restrictIndex]
    rw [if_pos (by omega)]

/-- C90 as `shape(i)` shows it: a negative index above -n gives what n+i gives. -/
theorem C90_negative_shape_partial {r : Reader D} {n : Nat} (hr : r.numRecords = some n) {i : Int} (h1 : -n < i) (h2 : i < 0)
    (res : Py (Reader D × Shape D)) : Reader.Shape r i res ↔ Reader.Shape r (n + i) res := by
  have e1 := (C90_indices_partial n (by omega) i).1 (by omega)
  have e2 := (C90_indices_partial n (by omega) (n + i)).1 (by omega)
  rw [if_pos h2] at e1
  rw [if_neg (by omega)] at e2
  rw [← hr] at e1 e2
  constructor
  · intro h
    cases h with
    | range h => rw [e1] at h; cases h
    | index h h' => rw [e1] at h; cases h; exact .index e2 h'
    | found h h' h'' => rw [e1] at h; cases h; exact .found e2 h' h''
    | before h h' h'' => rw [e1] at h; cases h; exact .before e2 h' h''
    | search h h' h'' h3 h4 h5 => rw [e1] at h; cases h; exact .search e2 h' h'' h3 h4 h5
    | missing h h' h'' h3 => rw [e1] at h; cases h; exact .missing e2 h' h'' h3
  · intro h
    cases h with
    | range h => rw [e2] at h; cases h
    | index h h' => rw [e2] at h; cases h; exact .index e1 h'
    | found h h' h'' => rw [e2] at h; cases h; exact .found e1 h' h''
    | before h h' h'' => rw [e2] at h; cases h; exact .before e1 h' h''
    | search h h' h'' h3 h4 h5 => rw [e2] at h; cases h; exact .search e1 h' h'' h3 h4 h5
    | missing h h' h'' h3 => rw [e2] at h; cases h; exact .missing e1 h' h'' h3

/-- C90 fails at -n: asking for the first of n records as -n raises `IndexError`, whatever the file. -/
theorem C90_violated_first {r : Reader D} {n : Nat} (hn : 0 < n) (hr : r.numRecords = some n) (res : Py (Reader D × Shape D)) :
    Reader.Shape r (-n) res ↔ res = .error .indexError := by
  have e := (C90_indices_partial n hn (-n)).2 (by omega)
  rw [← hr] at e
  constructor
  · intro h
    cases h with
    | range h => rw [e] at h; cases h; rfl
    | index h => rw [e] at h; cases h
    | found h => rw [e] at h; cases h
    | before h => rw [e] at h; cases h
    | search h => rw [e] at h; cases h
    | missing h => rw [e] at h; cases h
  · rintro rfl
    exact .range e

/-- C90 fails without records: no index is refused. -/
theorem C90_violated_empty (i : Int) : restrictIndex (some 0) i = .ok i := rfl

example : restrictIndex (some 3) (-2) = .ok 1 ∧ restrictIndex (some 3) (-3) = .error .indexError ∧ restrictIndex (some 3) 3 = .error .indexError := by
  decide +kernel

/-! ### C91 -/

/-- C91: `poly()` for a polygon type adds one shape; its parts cut its points into the given rings, each closed with its first point unless it
was closed, with the points made four numbers long. -/
theorem C91_poly {w w' : Writer D} {parts : List (List (List D))} {t : Int} (ht : t = 5 ∨ t = 15 ∨ t = 25 ∨ t = 31) (h : w.poly parts t = .ok w') :
    ∃ s starts rings, w'.shapes = w.shapes ++ [s] ∧ s.shapeType = some t ∧ s.parts = some starts ∧ List.Forall₂ Closes parts rings ∧
      cut starts s.points = rings.map (List.map four) ∧ s.points = (rings.map (List.map four)).flatten ∧
      ∀ (i : Nat) (o : Int), starts[i]? = some o → o = ((rings.take i).map List.length).sum := by
  obtain ⟨rings, s, rfl, hty, -, -, hr, hp, hs⟩ := poly_ok h
  rw [if_pos (by simp [ht])] at hr
  refine ⟨s, _, rings, rfl, hty, hs, hr, ?_, hp, ?_⟩
  · have := cut_offsets [] (rings.map (List.map four))
    rw [offsetsOf_map] at this
    rw [hp]
    exact this
  · have key : ∀ (rings : List (List (List D))) (n i : Nat) (o : Int), (offsetsOf n rings)[i]? = some o → o = n + ((rings.take i).map List.length).sum := by
      intro rings
      induction rings with
      | nil => intro n i o h; simp [offsetsOf] at h
      | cons r rs ih =>
        intro n i o h
        cases i with
        | zero => simp [offsetsOf] at h; simp [← h]
        | succ i =>
          have := ih _ i o (by simpa [offsetsOf] using h)
          simp only [List.take_succ_cons, List.map_cons, List.sum_cons]
          omega
    intro i o h
    have := key rings 0 i o h
    simpa using this

/-- C91: it works for all lists of rings with points. -/
theorem C91_poly_works (w : Writer D) {parts : List (List (List D))} (h : ∀ p ∈ parts, p ≠ []) (t : Int) : ∃ w', w.poly parts t = .ok w' := by
  have : ∃ rings, parts.mapM closePart = .ok rings := by
    induction parts with
    | nil => exact ⟨[], rfl⟩
    | cons p ps ih =>
      obtain ⟨rings, hr⟩ := ih (fun q hq => h q (by simp [hq]))
      obtain ⟨a, l, rfl⟩ : ∃ a l, p = a :: l := by
        cases p with
        | nil => exact absurd rfl (h [] (by simp))
        | cons a l => exact ⟨a, l, rfl⟩
      have : ∃ r, closePart (a :: l) = .ok r := by
        simp only [closePart, List.head?_cons, List.getLast?_cons]
        exact ⟨_, rfl⟩
      obtain ⟨r, hr'⟩ := this
      exact ⟨r :: rings, by rw [List.mapM_cons, hr', ok_bind, hr]; rfl⟩
  obtain ⟨rings, hr⟩ := this
  simp only [Writer.poly]
  split
  · rw [hr]; exact ⟨_, rfl⟩
  · exact ⟨_, rfl⟩

/-- C91: `line` always works, adds one shape of type 3, and leaves the parts as they are: open lines stay open. -/
theorem C91_line (w : Writer D) (parts : List (List (List D))) : ∃ s starts, w.line parts = .ok { w with shapes := w.shapes ++ [s] } ∧
    s.shapeType = some 3 ∧ s.parts = some starts ∧ s.partTypes = none ∧ cut starts s.points = parts.map (List.map four) := by
  have h : ∃ w', w.line parts = .ok w' := ⟨_, rfl⟩
  obtain ⟨w', h⟩ := h
  obtain ⟨rings, s, hw, hty, -, -, hr, hp, hs⟩ := poly_ok (t := 3) h
  rw [if_neg (by decide)] at hr
  subst hr
  refine ⟨s, _, by rw [h, hw], hty, hs, ?_, ?_⟩
  · have h2 : w.line rings = .ok w' := h
    simp only [Writer.line, Writer.poly] at h2
    rw [hw] at h2
    have h3 := congrArg Writer.shapes (Except.ok.inj h2)
    have h4 := List.append_cancel_left h3
    rw [← (List.cons.inj h4).1]
    rfl
  · have := cut_offsets [] (rings.map (List.map four))
    rw [offsetsOf_map] at this
    rw [hp]
    exact this

example : (Writer.line {} [[[toy 0, toy 0], [toy 0, toy 9]], [[toy 1, toy 2, toy 7]]]).map (fun w => w.shapes) =
    .ok [{ shapeType := some 3, parts := some [0, 2], points := [[toy 0, toy 0, 0, 0], [toy 0, toy 9, 0, 0], [toy 1, toy 2, toy 7, 0]] }] := by
  decide +kernel

example : (Writer.poly {} [[[toy 0, toy 0], [toy 0, toy 9], [toy 9, toy 9]], [[toy 1, toy 2, toy 7], [toy 2, toy 2], [toy 1, toy 2, toy 7]]] 5).map (fun w => w.shapes) =
    .ok [{ shapeType := some 5, parts := some [0, 4]
           points := [[toy 0, toy 0, 0, 0], [toy 0, toy 9, 0, 0], [toy 9, toy 9, 0, 0], [toy 0, toy 0, 0, 0],
                      [toy 1, toy 2, toy 7, 0], [toy 2, toy 2, 0, 0], [toy 1, toy 2, toy 7, 0]] }] := by decide +kernel

/-! ### C94 -/

/-- C94, what holds: every valid index but 0 removes that shape (negative ones from the end), other indices raise `IndexError`; nothing else
changes. Missing: index 0. -/
theorem C94_delete_partial {R : Type} (e : Editor D R) {i : Int} (h0 : i ≠ 0) :
    (∀ j : Nat, j < e.writer.shapes.length → (i = j ∨ i = (j : Int) - e.writer.shapes.length) →
      e.delete i = .ok { e with writer := { e.writer with shapes := e.writer.shapes.take j ++ e.writer.shapes.drop (j + 1) } }) ∧
    (¬ (-e.writer.shapes.length ≤ i ∧ i < e.writer.shapes.length) → e.delete i = .error .indexError) := by
  refine ⟨fun j hj h => ?_, fun h => ?_⟩
  · have : delItem e.writer.shapes i = .ok (e.writer.shapes.take j ++ e.writer.shapes.drop (j + 1)) := by
      simp only [delItem]
      have e' : (if i < 0 then i + e.writer.shapes.length else i) = (j : Int) := by split <;> omega
      rw [e', if_pos (by omega), Int.toNat_natCast, List.eraseIdx_eq_take_drop_succ]
    simp only [Editor.delete, if_pos h0, this, ok_bind]
    rfl
  · have : delItem e.writer.shapes i = .error .indexError := by
      simp only [delItem]
      rw [if_neg (by split <;> omega)]
    simp only [Editor.delete, if_pos h0, this]
    rfl

/-- C94 fails for the first shape: `delete(0)` does nothing, whatever there is. -/
theorem C94_violated {R : Type} (e : Editor D R) : e.delete 0 = .ok e := by simp [Editor.delete]

/-- Nor does it raise `IndexError` when there are no shapes. -/
example : (Editor.delete ({ writer := exampleWriter, names := [], records := ([] : List Nat) } : Editor Toy Nat) 1).map (fun e => e.writer.shapes.length) = .ok 1 := by
  decide +kernel

/-! ### C95 -/

/-- Any number of `point()` calls. -/
def points {R : Type} (e : Editor D R) : List (D × D × D × D) → Py (Editor D R)
  | [] => .ok e
  | (x, y, z, m) :: ps => do points (← e.point x y z m) ps

theorem point_behind {R : Type} {e e' : Editor D R} {x y z m : D} (h : e.point x y z m = .ok e') (hb : e.records.length ≤ e.writer.shapes.length) :
    e'.records = e.records ∧ e'.writer.shapes.length = e.writer.shapes.length + 1 := by
  simp only [Editor.point] at h
  split at h
  · simp only [Editor.balance, Writer.point, List.length_append, List.length_cons, List.length_nil] at h
    rw [if_neg (by omega), if_pos (by omega)] at h
    simp only [Editor.recordNothing] at h
    split at h
    · cases h
    · cases h; exact ⟨rfl, by simp [Writer.point]⟩
  · cases h; exact ⟨rfl, by simp [Writer.point]⟩

/-- C95 fails: starting with as many records as shapes (as in an empty editor), after any number of `point()` calls there are that many shapes
more than records; no record is ever added. -/
theorem C95_violated {R : Type} {e e' : Editor D R} {ps : List (D × D × D × D)} (h0 : e.records.length = e.writer.shapes.length)
    (h : points e ps = .ok e') : e'.records = e.records ∧ e'.writer.shapes.length = e'.records.length + ps.length := by
  have key : ∀ (ps : List (D × D × D × D)) (e e' : Editor D R), e.records.length ≤ e.writer.shapes.length → points e ps = .ok e' →
      e'.records = e.records ∧ e'.writer.shapes.length = e.writer.shapes.length + ps.length := by
    intro ps
    induction ps with
    | nil => intro e e' hb h; cases h; exact ⟨rfl, by simp⟩
    | cons p ps ih =>
      intro e e' hb h
      obtain ⟨x, y, z, m⟩ := p
      obtain ⟨e1, h1, h2⟩ := Py.bind_ok.mp h
      obtain ⟨a1, a2⟩ := point_behind h1 hb
      obtain ⟨b1, b2⟩ := ih e1 e' (by rw [a1]; omega) h2
      refine ⟨b1.trans a1, ?_⟩
      rw [b2, a2, List.length_cons]
      omega
  obtain ⟨h1, h2⟩ := key ps e e' (by omega) h
  exact ⟨h1, by rw [h1, h2, h0]⟩

/-- C95 fails: without fields `point()` raises `IndexError` when it comes to adding a record, the shape is there already. -/
theorem C95_violated_no_fields {R : Type} {e : Editor D R} (hn : e.names = []) (ha : e.autoBalance = true)
    (h : e.records.length ≤ e.writer.shapes.length) (x y z m : D) : e.point x y z m = .error .indexError := by
  simp only [Editor.point, ha, if_true, Editor.balance, Writer.point, List.length_append, List.length_cons, List.length_nil]
  rw [if_neg (by omega), if_pos (by omega)]
  simp [Editor.recordNothing, hn]

theorem point_adds {R : Type} {e e' : Editor D R} {x y z m : D} (h : e.point x y z m = .ok e') :
    ∃ extra : List (Shape D), e'.writer.shapes = e.writer.shapes ++ { shapeType := e.writer.shapeType, points := [[x, y, z, m]] } :: extra ∧
      ∀ s ∈ extra, s.shapeType = some 0 ∧ s.points = [] := by
  have hend : ∀ l : List (Shape D), l = (e.writer.point x y z m).shapes → ∃ extra : List (Shape D),
      l = e.writer.shapes ++ { shapeType := e.writer.shapeType, points := [[x, y, z, m]] } :: extra ∧
      ∀ s ∈ extra, s.shapeType = some 0 ∧ s.points = [] := fun l hl => ⟨[], hl, by simp⟩
  simp only [Editor.point, Editor.balance] at h
  split at h
  · split at h
    · cases h
      exact ⟨_, by simp only [Writer.null, Writer.point, List.append_assoc]; rfl, by simp⟩
    · split at h
      · simp only [Editor.recordNothing] at h
        split at h
        · cases h
        · cases h; exact hend _ rfl
      · cases h; exact hend _ rfl
  · cases h; exact hend _ rfl

/-- C95, what holds: `point()` adds the point and after it nothing but null shapes without points; it balances if there were one or two more
records than shapes before; a null shape is added in the second case. Missing: all other cases. -/
theorem C95_balanced_partial {R : Type} {e e' : Editor D R} (ha : e.autoBalance = true) {x y z m : D} (h : e.point x y z m = .ok e') :
    e'.records = e.records ∧ (e'.records.length = e'.writer.shapes.length ↔
      e.records.length = e.writer.shapes.length + 1 ∨ e.records.length = e.writer.shapes.length + 2) ∧
    ∃ extra : List (Shape D), e'.writer.shapes = e.writer.shapes ++ { shapeType := e.writer.shapeType, points := [[x, y, z, m]] } :: extra ∧
      ∀ s ∈ extra, s.shapeType = some 0 ∧ s.points = [] := by
  refine and_assoc.mp ⟨?_, point_adds h⟩
  simp only [Editor.point, ha, if_true, Editor.balance] at h
  have hl : (e.writer.point x y z m).shapes.length = e.writer.shapes.length + 1 := by simp [Writer.point]
  split at h
  · cases h
    refine ⟨rfl, ?_⟩
    simp only [Writer.null, List.length_append, List.length_cons, List.length_nil, hl] at *
    omega
  · split at h
    · simp only [Editor.recordNothing] at h
      split at h
      · cases h
      · cases h; refine ⟨rfl, ?_⟩; dsimp only at *; omega
    · cases h; refine ⟨rfl, ?_⟩; dsimp only at *; omega

/-- An empty editor with a field, two points. -/
example : (points ({ writer := { shapeType := some 1 }, names := [['a']], records := ([] : List Nat) } : Editor Toy Nat) [(0, 0, 0, 0), (toy 1, 0, 0, 0)]).map
    (fun e => (e.records.length, e.writer.shapes.length)) = .ok (0, 2) := by decide +kernel

/-! ### C96 -/

theorem mbox_range {ss : List (Shape D)} {m : List D} (h : mboxOf ss = .ok m) :
    m = [((ss.map (fun s => coordsUpTo 3 s.points)).flatten).foldl min 0, ((ss.map (fun s => coordsUpTo 3 s.points)).flatten).foldl max 0] := by
  simp only [mboxOf, minOf, maxOf, ok_bind] at h
  exact (Except.ok.inj h).symm

theorem read_measures {w w' : Writer D} {shp : List Byte} (h : w.saveShp = .ok (w', shp)) {t : Int} (hft : fileType w = some t)
    (ht : t = 23 ∨ t = 25) (shx : Option (List Byte)) (numRecords : Option Nat) :
    ∃ (r : Reader D) (outs : List (Shape D)) (m : List D), Reader.new shp shx numRecords = .ok r ∧ mboxOf w.shapes = .ok m ∧ r.noM = decide ((0 : D) ∈ m) ∧
      (∀ res, Shapes D r.noM r.shp 100 res ↔ res = .ok outs) ∧ List.Forall₂ (fun s out => if r.noM then out.m = none else
        ∃ ms : List D, s.points.map (fun p => p[3]?) = ms.map some ∧ out.m = some (noNoData ms)) w.shapes outs := by
  obtain ⟨t', n, m, hd, rs, hft', -, -, hm, hhd, rfl, hrecs, -, -, hhead⟩ := saveShp_ok h
  rw [hft] at hft'
  cases hft'
  obtain ⟨outs, hs, hall⟩ := hrecs.shapes (by simp only [Plain]; omega) rfl (decide ((0 : D) ∈ m)) hd
  rw [hhd] at hs
  refine ⟨{ shp := hd ++ rs.flatten, shx := shx, numRecords := numRecords, measure := m }, outs, m, ?_, hm, rfl, ?_, hall.imp (fun _ _ h => h.2 ht)⟩
  · simp only [Reader.new, hhead, ok_bind]
    rfl
  · intro res
    exact ⟨fun hr => Shapes.det hr hs, fun hr => by rw [hr]; exact hs⟩

/-- C96, what holds: if some measures of the file are below and some above zero, and all above the no-data value, they come back. Missing: files
with measures on one side of zero only, see below. -/
theorem C96_measures_partial {w w' : Writer D} {shp : List Byte} (h : w.saveShp = .ok (w', shp)) {t : Int} (hft : fileType w = some t)
    (ht : t = 23 ∨ t = 25) (hlo : ∃ s ∈ w.shapes, ∃ v ∈ measures s, v < 0) (hhi : ∃ s ∈ w.shapes, ∃ v ∈ measures s, 0 < v)
    (hdata : ∀ s ∈ w.shapes, ∀ v ∈ measures s, Double.noData < v) (shx : Option (List Byte)) (numRecords : Option Nat) :
    ∃ (r : Reader D) (outs : List (Shape D)), Reader.new shp shx numRecords = .ok r ∧ (∀ res, Shapes D r.noM r.shp 100 res ↔ res = .ok outs) ∧
      List.Forall₂ (fun s out => (measures s).length = s.points.length ∧ out.m = some ((measures s).map some)) w.shapes outs := by
  obtain ⟨r, outs, m, hr, hm, hno, hs, hall⟩ := read_measures h hft ht shx numRecords
  have hm' := mbox_range hm
  -- a file without measures in some points cannot be saved
  have hcases : (0 : D) ∉ m := by
    obtain ⟨t', n, m', hd, rs, hft', -, -, -, hhd, rfl, hrecs, -, -, hhead⟩ := saveShp_ok h
    rw [hft] at hft'
    cases hft'
    obtain ⟨outs', -, hall'⟩ := hrecs.shapes (by simp only [Plain]; omega) rfl false hd
    have hcoord : ∀ s ∈ w.shapes, coordsUpTo 3 s.points = measures s := by
      intro s hs
      obtain ⟨j, hj, rfl⟩ := List.mem_iff_getElem.mp hs
      have := (List.Forall₂.get hall' hj (by rw [← hall'.length_eq]; exact hj)).2 ht
      obtain ⟨ms, h1, -⟩ := (by simpa using this : ∃ ms : List D, _ ∧ _)
      obtain ⟨e1, e2⟩ := coordsUpTo_eq h1
      rw [measures, e2, ← e1]
    have hmem : ∀ s ∈ w.shapes, ∀ v ∈ measures s, v ∈ (w.shapes.map (fun s => coordsUpTo 3 s.points)).flatten := by
      intro s hs v hv
      exact List.mem_flatten.mpr ⟨_, List.mem_map_of_mem hs, by rw [hcoord s hs]; exact hv⟩
    rw [hm']
    obtain ⟨s1, hs1, v1, hv1, hlt1⟩ := hlo
    obtain ⟨s2, hs2, v2, hv2, hlt2⟩ := hhi
    have a1 := (foldl_min_le 0 _).2 v1 (hmem s1 hs1 v1 hv1)
    have a2 := (foldl_max_le 0 _).2 v2 (hmem s2 hs2 v2 hv2)
    simp only [List.mem_cons, List.not_mem_nil, or_false, not_or]
    exact ⟨fun e => absurd (lt_of_le_of_lt a1 hlt1) (by rw [← e]; exact lt_irrefl _), fun e => absurd (lt_of_lt_of_le hlt2 a2) (by rw [← e]; exact lt_irrefl _)⟩
  rw [hno, decide_eq_false hcases] at hall
  refine ⟨r, outs, hr, hs, ?_⟩
  clear * - hall hdata
  generalize w.shapes = ws at hall hdata
  induction hall with
  | nil => exact .nil
  | cons h1 _ ih =>
    rename_i s out ss outs _
    refine .cons ?_ (ih (fun s hs => hdata s (by simp [hs])))
    obtain ⟨ms, h2, h3⟩ := (by simpa using h1 : ∃ ms : List D, _ ∧ _)
    obtain ⟨-, e2⟩ := coordsUpTo_eq h2
    have e3 : measures s = ms := e2
    rw [h3, e3]
    refine ⟨?_, ?_⟩
    · have := congrArg List.length h2
      simpa using this.symm
    · congr 1
      refine List.map_congr_left (fun v hv => ?_)
      rw [if_pos (hdata s (by simp) v (by rw [e3]; exact hv))]

/-- C96 fails if no measure is below zero, or none above: no shape of the file has measures when read. -/
theorem C96_violated {w w' : Writer D} {shp : List Byte} (h : w.saveShp = .ok (w', shp)) {t : Int} (hft : fileType w = some t)
    (ht : t = 23 ∨ t = 25) (hside : (∀ s ∈ w.shapes, ∀ v ∈ measures s, 0 ≤ v) ∨ (∀ s ∈ w.shapes, ∀ v ∈ measures s, v ≤ 0))
    (shx : Option (List Byte)) (numRecords : Option Nat) :
    ∃ (r : Reader D) (outs : List (Shape D)), Reader.new shp shx numRecords = .ok r ∧ (∀ res, Shapes D r.noM r.shp 100 res ↔ res = .ok outs) ∧
      outs.length = w.shapes.length ∧ ∀ out ∈ outs, out.m = none := by
  obtain ⟨r, outs, m, hr, hm, hno, hs, hall⟩ := read_measures h hft ht shx numRecords
  have h0 : (0 : D) ∈ m := by
    rw [mbox_range hm]
    have hsub : ∀ v ∈ (w.shapes.map (fun s => coordsUpTo 3 s.points)).flatten, ∃ s ∈ w.shapes, v ∈ measures s := by
      intro v hv
      obtain ⟨l, hl, hv⟩ := List.mem_flatten.mp hv
      obtain ⟨s, hs, rfl⟩ := List.mem_map.mp hl
      exact ⟨s, hs, coordsUpTo_sub s.points v hv⟩
    rcases hside with hside | hside
    · rw [foldl_min_eq 0 _ (fun v hv => by obtain ⟨s, hs, hv⟩ := hsub v hv; exact hside s hs v hv)]
      simp
    · rw [foldl_max_eq 0 _ (fun v hv => by obtain ⟨s, hs, hv⟩ := hsub v hv; exact hside s hs v hv)]
      simp
  rw [hno, decide_eq_true h0] at hall
  refine ⟨r, outs, hr, hs, hall.length_eq.symm, ?_⟩
  intro out ho
  obtain ⟨j, hj, rfl⟩ := List.mem_iff_getElem.mp ho
  have := List.Forall₂.get hall (by rw [hall.length_eq]; exact hj) hj
  simpa using this

/-- A line with measures -1 and 2 keeps them, with measures 1 and 2 it does not. -/
example : (Writer.poly ({ shapeType := some 23 } : Writer Toy) [[[0, 0, 0, toy (-1)], [toy 5, 0, 0, toy 2]]] 23 >>= fun w => do
      let (_, shp) ← w.saveShp
      let r ← Reader.new (D := Toy) shp none none
      let (s, _) ← shapeAt (D := Toy) r.noM r.shp 100
      return s.m) = .ok (some [some (toy (-1)), some (toy 2)]) ∧
    (Writer.poly ({ shapeType := some 23 } : Writer Toy) [[[0, 0, 0, toy 1], [toy 5, 0, 0, toy 2]]] 23 >>= fun w => do
      let (_, shp) ← w.saveShp
      let r ← Reader.new (D := Toy) shp none none
      let (s, _) ← shapeAt (D := Toy) r.noM r.shp 100
      return s.m) = .ok none := by
  constructor <;> decide +kernel

end

end Shapefile
end Coral
