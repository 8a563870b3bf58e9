import Verif.Proofs.Editing
import Verif.Spec.Editing
import Verif.Props.Shapefile
import Mathlib.Order.MinMax

/-!
# Null shapes, boxes and editing a file (C136–C139)
-/
namespace Coral
namespace Shapefile

set_option linter.unusedSectionVars false

section
variable {D : Type} [Double D]

/-! ### Boxes -/

theorem mapM_xy {ps : List (List D)} (h : ∀ p ∈ ps, 2 ≤ p.length) :
    ∃ l, ps.mapM xy = some l ∧ l.map Prod.fst = ps.filterMap (fun p => p[0]?) ∧ l.map Prod.snd = ps.filterMap (fun p => p[1]?) := by
  induction ps with
  | nil => exact ⟨[], rfl, rfl, rfl⟩
  | cons p ps ih =>
    obtain ⟨l, h1, h2, h3⟩ := ih (fun p hp => h p (by simp [hp]))
    have := h p (by simp)
    match p, this with
    | x :: y :: q, _ => exact ⟨(x, y) :: l, by rw [List.mapM_cons, h1]; rfl, by simp [h2], by simp [h3]⟩

theorem mapM_xy_none {ps : List (List D)} (h : ¬ ∀ p ∈ ps, 2 ≤ p.length) : ps.mapM xy = none := by
  induction ps with
  | nil => simp at h
  | cons p ps ih =>
    rw [List.mapM_cons]
    match p with
    | [] => rfl
    | [_] => rfl
    | x :: y :: q =>
      have : ¬ ∀ p ∈ ps, 2 ≤ p.length := fun hc => h (by simpa using hc)
      rw [ih this]
      rfl

theorem columns_good {ps : List (List D)} (hne : ps ≠ []) (h : ∀ p ∈ ps, 2 ≤ p.length) :
    columns ps = .ok (ps.filterMap (fun p => p[0]?), ps.filterMap (fun p => p[1]?)) := by
  obtain ⟨l, h1, h2, h3⟩ := mapM_xy h
  match l, h1, h2, h3 with
  | [], h1, h2, _ =>
    exfalso
    match ps, hne, h, h2 with
    | p :: ps, _, h, h2 =>
      have := h p (by simp)
      match p, this with
      | x :: y :: q, _ => simp at h2
  | a :: l, h1, h2, h3 => simp only [columns, h1, h2, h3]

theorem columns_bad {ps : List (List D)} (h : ¬ (ps ≠ [] ∧ ∀ p ∈ ps, 2 ≤ p.length)) : columns ps = .error .valueError := by
  by_cases hne : ps = []
  · subst hne; rfl
  · have : ¬ ∀ p ∈ ps, 2 ≤ p.length := fun hc => h ⟨hne, hc⟩
    simp only [columns, mapM_xy_none this]

theorem mapM_error {α β : Type} {f : α → Py β} {e : PyErr} (l : List α) (hf : ∀ a ∈ l, (∃ b, f a = .ok b) ∨ f a = .error e) (h : ∃ a ∈ l, f a = .error e) :
    l.mapM f = .error e := by
  induction l with
  | nil => simp at h
  | cons a l ih =>
    rw [List.mapM_cons]
    rcases hf a (by simp) with ⟨b, hb⟩ | hb
    · have : ∃ a ∈ l, f a = .error e := by
        obtain ⟨c, hc, he⟩ := h
        rcases List.mem_cons.mp hc with rfl | hc
        · rw [hb] at he; cases he
        · exact ⟨c, hc, he⟩
      rw [hb, ih (fun a ha => hf a (by simp [ha])) this]
      rfl
    · rw [hb]; rfl

/-- The shapes have a box. -/
def Boxed (ss : List (Shape D)) : Prop := ss ≠ [] ∧ (∀ s ∈ ss, s.points ≠ []) ∧ Have 2 ss

theorem bboxOf_bad {ss : List (Shape D)} (h : ¬ Boxed ss) : bboxOf ss = .error .valueError := by
  by_cases hne : ss = []
  · subst hne; rfl
  · have : ∃ s ∈ ss, columns s.points = .error .valueError := by
      by_contra hc
      push_neg at hc
      exact h ⟨hne, fun s hs he => hc s hs (columns_bad (by simp [he])), fun s hs => by
        by_contra hb
        exact hc s hs (columns_bad (fun hb' => hb hb'.2))⟩
    have hm := mapM_error (f := fun s : Shape D => columns s.points) ss (e := .valueError) (fun s _ => by
      by_cases hg : s.points ≠ [] ∧ ∀ p ∈ s.points, 2 ≤ p.length
      · exact .inl ⟨_, columns_good hg.1 hg.2⟩
      · exact .inr (columns_bad hg)) this
    simp only [bboxOf, hm]
    rfl

theorem mapM_map {α β : Type} {f : α → Py β} {g : α → β} (l : List α) (h : ∀ a ∈ l, f a = .ok (g a)) : l.mapM f = .ok (l.map g) := by
  induction l with
  | nil => rfl
  | cons a l ih =>
    rw [List.mapM_cons, h a (by simp), ih (fun a ha => h a (by simp [ha]))]
    rfl

theorem foldl_min_mem (a : D) (l : List D) : l.foldl min a ∈ a :: l := by
  induction l generalizing a with
  | nil => simp
  | cons b l ih =>
    rw [List.foldl_cons]
    have := ih (min a b)
    rcases List.mem_cons.mp this with h | h
    · rcases min_choice a b with hm | hm <;> rw [h, hm] <;> simp
    · simp [h]

theorem foldl_max_mem (a : D) (l : List D) : l.foldl max a ∈ a :: l := by
  induction l generalizing a with
  | nil => simp
  | cons b l ih =>
    rw [List.foldl_cons]
    have := ih (max a b)
    rcases List.mem_cons.mp this with h | h
    · rcases max_choice a b with hm | hm <;> rw [h, hm] <;> simp
    · simp [h]

theorem extremes_of {l : List D} (h : l ≠ []) : ∃ lo hi, minOf l = .ok lo ∧ maxOf l = .ok hi ∧ Extremes l lo hi := by
  match l, h with
  | a :: l, _ =>
    refine ⟨_, _, rfl, rfl, foldl_min_mem a l, foldl_max_mem a l, ?_, ?_⟩
    · obtain ⟨h1, h2⟩ := foldl_min_le a l
      simpa using ⟨h1, h2⟩
    · obtain ⟨h1, h2⟩ := foldl_max_le a l
      simpa using ⟨h1, h2⟩

theorem Extremes.unique {l : List D} {lo hi lo' hi' : D} (h : Extremes l lo hi) (h' : Extremes l lo' hi') : lo = lo' ∧ hi = hi' :=
  ⟨le_antisymm (h.lo_le _ h'.lo_mem) (h'.lo_le _ h.lo_mem), le_antisymm (h'.le_hi _ h.hi_mem) (h.le_hi _ h'.hi_mem)⟩

theorem bboxOf_good {ss : List (Shape D)} (h : Boxed ss) :
    ∃ x0 y0 x1 y1, bboxOf ss = .ok [x0, y0, x1, y1] ∧ Extremes (coords 0 ss) x0 x1 ∧ Extremes (coords 1 ss) y0 y1 := by
  obtain ⟨hne, hp, h2⟩ := h
  have hm := mapM_map (f := fun s : Shape D => columns s.points) ss (fun s hs => columns_good (hp s hs) (h2 s hs))
  have e1 : ((ss.map (fun s => (s.points.filterMap (fun p => p[0]?), s.points.filterMap (fun p => p[1]?)))).map Prod.fst).flatten = coords 0 ss := by
    rw [List.map_map, coords, List.flatMap_def]; rfl
  have e2 : ((ss.map (fun s => (s.points.filterMap (fun p => p[0]?), s.points.filterMap (fun p => p[1]?)))).map Prod.snd).flatten = coords 1 ss := by
    rw [List.map_map, coords, List.flatMap_def]; rfl
  have hc : coords 0 ss ≠ [] ∧ coords 1 ss ≠ [] := by
    match ss, hne, hp, h2 with
    | s :: ss, _, hp, h2 =>
      have h1 := hp s (by simp)
      have h3 := h2 s (by simp)
      match hq : s.points, h1 with
      | p :: ps, _ =>
        have := h3 p (by simp [hq])
        match p, this with
        | x :: y :: q, _ => simp [coords, hq]
  obtain ⟨x0, x1, hx0, hx1, hx⟩ := extremes_of hc.1
  obtain ⟨y0, y1, hy0, hy1, hy⟩ := extremes_of hc.2
  refine ⟨x0, y0, x1, y1, ?_, hx, hy⟩
  simp only [bboxOf, hm, ok_bind, e1, e2, hx0, hx1, hy0, hy1]
  rfl

/-! ### C137 -/

/-- C137: `bbox()` gives the smallest and largest x and y of all points of all shapes if there are shapes, each has points and each point has
two coordinates or more; otherwise it raises `ValueError`. -/
theorem C137_bbox (w : Writer D) :
    (∀ x0 y0 x1 y1, w.bbox = .ok [x0, y0, x1, y1] ↔
      (w.shapes ≠ [] ∧ (∀ s ∈ w.shapes, s.points ≠ []) ∧ Have 2 w.shapes) ∧ Extremes (coords 0 w.shapes) x0 x1 ∧ Extremes (coords 1 w.shapes) y0 y1) ∧
    (¬ (w.shapes ≠ [] ∧ (∀ s ∈ w.shapes, s.points ≠ []) ∧ Have 2 w.shapes) → w.bbox = .error .valueError) := by
  refine ⟨?_, fun h => bboxOf_bad h⟩
  intro x0 y0 x1 y1
  constructor
  · intro h
    by_cases hb : Boxed w.shapes
    · obtain ⟨a0, b0, a1, b1, he, hx, hy⟩ := bboxOf_good hb
      have := he.symm.trans h
      cases this
      exact ⟨hb, hx, hy⟩
    · have := (bboxOf_bad hb).symm.trans h
      cases this
  · rintro ⟨hb, hx, hy⟩
    obtain ⟨a0, b0, a1, b1, he, hx', hy'⟩ := bboxOf_good hb
    obtain ⟨rfl, rfl⟩ := hx.unique hx'
    obtain ⟨rfl, rfl⟩ := hy.unique hy'
    exact he

/-- What the header of a saved file holds. -/
theorem header_boxes {w w' : Writer D} {shp : List Byte} (h : w.saveShp = .ok (w', shp)) {t : Int} (hft : fileType w = some t) :
    ∃ box z m, headerBox t w.shapes = .ok box ∧ zboxOf w.shapes = .ok z ∧ mboxOf w.shapes = .ok m ∧
      ∃ rest, readDs 8 (shp.drop 36) = .ok (box ++ z ++ m, rest) := by
  simp only [Writer.saveShp, Py.bind_ok] at h
  obtain ⟨w1, hw1, t', ht, hd, hhd, ⟨f, offs, lens, ss⟩, hr, h⟩ := h
  cases h
  rw [withType_ok hw1] at ht hhd hr
  have ht := number_ok ht
  dsimp only at ht hhd hr
  rw [hft] at ht
  cases ht
  obtain ⟨n, m, hn, hm, hlen, hhead, -⟩ := header_ok hhd
  obtain ⟨rs, hrs, hdata, ho, hl⟩ := recordsLoop_ok (by simp [File.seek, hlen]) hr
  have e : f.data = hd ++ rs.flatten := by simpa [File.seek] using hdata
  simp only [header, Py.bind_ok] at hhd
  obtain ⟨b1, h1, n, hn, b2, h2, b3, h3, b4, h4, box, hbox, z, hz, m, hm, hh⟩ := hhd
  cases hh
  have l1 : b1.flatten.length = 24 := by rw [packBIs_length h1]; rfl
  have l2 := packBI_length h2
  have l3 := packI_length h3
  have l4 := packI_length h4
  have lz := zboxOf_length hz
  have lm := mboxOf_length hm
  have lb : box.length = 4 := by
    simp only [List.length_append, encAll_length] at hlen
    omega
  refine ⟨box, z, m, hbox, hz, hm, rs.flatten, ?_⟩
  rw [e]
  have : b1.flatten ++ b2 ++ b3 ++ b4 ++ encAll box ++ encAll z ++ encAll m ++ rs.flatten =
      (b1.flatten ++ b2 ++ b3 ++ b4) ++ (encAll (box ++ z ++ m) ++ rs.flatten) := by simp [encAll]
  rw [this, List.drop_left' (by simp only [List.length_append]; omega)]
  exact readDs_enc' (by simp only [List.length_append]; omega) _

/-- C137: the box in the header of a saved file is that of `bbox()`. -/
theorem C137_header_box {w w' : Writer D} {shp : List Byte} (h : w.saveShp = .ok (w', shp)) {t : Int} (hft : fileType w = some t) (ht : t ≠ 0) :
    ∃ x0 y0 x1 y1 rest, readDs 4 (shp.drop 36) = .ok ([x0, y0, x1, y1], rest) ∧ Extremes (coords 0 w.shapes) x0 x1 ∧ Extremes (coords 1 w.shapes) y0 y1 := by
  obtain ⟨box, z, m, hb, hz, hm, rest, hr⟩ := header_boxes h hft
  rw [headerBox, if_pos ht] at hb
  have hgood : Boxed w.shapes := by
    by_contra hc
    have := (bboxOf_bad hc).symm.trans hb
    cases this
  obtain ⟨a0, b0, a1, b1, he, hx, hy⟩ := bboxOf_good hgood
  have := he.symm.trans hb
  cases this
  simp only [readDs, Py.bind_ok] at hr
  obtain ⟨⟨d1, r1⟩, h1, ⟨_, _⟩, ⟨⟨d2, r2⟩, h2, ⟨_, _⟩, ⟨⟨d3, r3⟩, h3, ⟨_, _⟩, ⟨⟨d4, r4⟩, h4, ⟨_, _⟩, -, e4⟩, e3⟩, e2⟩, e1⟩ := hr
  cases e4
  cases e3
  cases e2
  simp only [pure, Except.pure, Except.ok.injEq, Prod.mk.injEq, List.cons_append, List.nil_append, List.cons.injEq] at e1
  obtain ⟨⟨rfl, rfl, rfl, rfl, -⟩, -⟩ := e1
  refine ⟨d1, d2, d3, d4, r4, ?_, hx, hy⟩
  simp only [readDs, h1, h2, h3, h4, ok_bind]
  rfl

/-- Two shapes, three points. -/
example : (Writer.mk [{ shapeType := some 1, points := [[toy 3, toy (-4), 0, 0]] }, { shapeType := some 1, points := [[toy 1, toy 9], [toy 2, toy 5, 0]] }]
    (some 8) [] [] : Writer Toy).bbox = .ok [toy 1, toy (-4), toy 3, toy 9] := by decide +kernel

/-! ### C138 -/

theorem coordsUpTo_have {i : Nat} {ps : List (List D)} (h : ∀ p ∈ ps, i + 1 ≤ p.length) : coordsUpTo i ps = ps.filterMap (fun p => p[i]?) := by
  induction ps with
  | nil => rfl
  | cons p ps ih =>
    have hp : p[i]? = some (p[i]'(by have := h p (by simp); omega)) := List.getElem?_eq_getElem _
    rw [List.filterMap_cons, hp, coordsUpTo, hp, ← ih (fun p hp => h p (by simp [hp]))]

theorem coordsUpTo_have_not {i : Nat} {ps : List (List D)} (h : ∀ p ∈ ps, p.length ≤ i) : coordsUpTo i ps = [] := by
  match ps with
  | [] => rfl
  | p :: ps =>
    have hp : p[i]? = none := List.getElem?_eq_none (h p (by simp))
    simp only [coordsUpTo, hp]

theorem coordsUpTo_coords {i : Nat} {ss : List (Shape D)} (h : Have (i + 1) ss) : (ss.map (fun s => coordsUpTo i s.points)).flatten = coords i ss := by
  rw [coords, List.flatMap_def]
  congr 1
  exact List.map_congr_left (fun s hs => coordsUpTo_have (h s hs))

/-- C138, what holds: if all points have an elevation, `zbox()` gives the smallest and the largest one, and zeros if there are no points. Missing:
measures on one side of zero, and shapes that were read from a file, see below. -/
theorem C138_zbox_partial {w : Writer D} (h : Have 3 w.shapes) :
    (coords 2 w.shapes = [] → w.zbox = .ok [0, 0]) ∧
    (∀ lo hi, Extremes (coords 2 w.shapes) lo hi → w.zbox = .ok [lo, hi]) ∧ (coords 2 w.shapes ≠ [] → ∃ lo hi, Extremes (coords 2 w.shapes) lo hi) := by
  have e := coordsUpTo_coords h
  refine ⟨?_, ?_, fun hne => ?_⟩
  · intro hc
    simp only [Writer.zbox, zboxOf, e, hc]
    rfl
  · intro lo hi hx
    have hne : coords 2 w.shapes ≠ [] := List.ne_nil_of_mem hx.lo_mem
    obtain ⟨lo', hi', h1, h2, hx'⟩ := extremes_of hne
    obtain ⟨rfl, rfl⟩ := hx.unique hx'
    simp only [Writer.zbox, zboxOf, e, if_neg hne, h1, h2, ok_bind]
    rfl
  · obtain ⟨lo', hi', h1, h2, hx'⟩ := extremes_of hne
    exact ⟨lo', hi', hx'⟩

/-- C138, what holds: if all points have a measure, `mbox()` gives the extremes of the measures and zero. It is right if and only if zero lies
between the smallest and the largest measure. -/
theorem C138_mbox_partial {w : Writer D} (h : Have 4 w.shapes) {lo hi : D} (hx : Extremes (coords 3 w.shapes) lo hi) :
    w.mbox = .ok [min 0 lo, max 0 hi] ∧ (w.mbox = .ok [lo, hi] ↔ lo ≤ 0 ∧ 0 ≤ hi) := by
  have e := coordsUpTo_coords h
  obtain ⟨lo', hi', h1, h2, hx'⟩ := extremes_of (l := (0 : D) :: coords 3 w.shapes) (by simp)
  have hm : w.mbox = .ok [lo', hi'] := by
    simp only [Writer.mbox, mboxOf, e, h1, h2, ok_bind]
    rfl
  have hx'' : Extremes ((0 : D) :: coords 3 w.shapes) (min 0 lo) (max 0 hi) := by
    refine ⟨?_, ?_, ?_, ?_⟩
    · rcases min_choice (0 : D) lo with he | he <;> rw [he]
      · simp
      · exact List.mem_cons_of_mem _ hx.lo_mem
    · rcases max_choice (0 : D) hi with he | he <;> rw [he]
      · simp
      · exact List.mem_cons_of_mem _ hx.hi_mem
    · intro a ha
      rcases List.mem_cons.mp ha with rfl | ha
      · exact min_le_left _ _
      · exact le_trans (min_le_right _ _) (hx.lo_le a ha)
    · intro a ha
      rcases List.mem_cons.mp ha with rfl | ha
      · exact le_max_left _ _
      · exact le_trans (hx.le_hi a ha) (le_max_right _ _)
  obtain ⟨rfl, rfl⟩ := hx'.unique hx''
  refine ⟨hm, ?_⟩
  rw [hm]
  constructor
  · intro he
    simp only [Except.ok.injEq, List.cons.injEq, and_true] at he
    exact ⟨min_eq_right_iff.mp he.1, max_eq_right_iff.mp he.2⟩
  · rintro ⟨h1, h2⟩
    rw [min_eq_right h1, max_eq_right h2]

/-- C138 fails: of measures above zero `mbox()` says that they start at zero. -/
theorem C138_mbox_violated {w : Writer D} (h : Have 4 w.shapes) (hne : coords 3 w.shapes ≠ []) (hpos : ∀ v ∈ coords 3 w.shapes, 0 < v) :
    ∃ hi, w.mbox = .ok [0, hi] ∧ (0 : D) ∉ coords 3 w.shapes := by
  obtain ⟨lo, hi, -, -, hx⟩ := extremes_of hne
  refine ⟨max 0 hi, ?_, fun h0 => lt_irrefl _ (hpos 0 h0)⟩
  rw [(C138_mbox_partial h hx).1, min_eq_left (le_of_lt (hpos lo hx.lo_mem))]

/-- C138 fails: a point without elevation hides the elevations of all points after it in its shape (the exception ends the loop). -/
theorem C138_hidden_violated {w : Writer D} {l r : List (Shape D)} {s : Shape D} {a rest : List (List D)} {p : List D}
    (hw : w.shapes = l ++ s :: r) (hs : s.points = a ++ p :: rest) (hp : p.length ≤ 2) :
    w.zbox = ({ w with shapes := l ++ { s with points := a } :: r } : Writer D).zbox := by
  have key : coordsUpTo 2 (a ++ p :: rest) = coordsUpTo 2 a := by
    clear hs
    induction a with
    | nil => simp only [List.nil_append, coordsUpTo, List.getElem?_eq_none hp]
    | cons b a ih => simp only [List.cons_append, coordsUpTo, ih]
  simp only [Writer.zbox, zboxOf, hw, List.map_append, List.map_cons, hs, key]

example : (({ shapes := [{ shapeType := some 11, points := [[toy 1, toy 1, toy 3], [toy 2, toy 2], [toy 3, toy 3, toy 9]] }] } : Writer Toy).zbox) = .ok [toy 3, toy 3] := by
  decide +kernel

/-- C138 fails: whatever the elevations and measures of the shapes in a file are, those of an editor that opens it are zero. -/
theorem C138_editor_violated {shp : List Byte} {e : Writer D} (h : Opened shp e) : e.zbox = .ok [0, 0] ∧ e.mbox = .ok [0, 0] := by
  obtain ⟨hh, hs⟩ := h
  rename_i l t m outs
  have h2 := hs.two outs rfl
  have hz : ∀ i, 2 ≤ i → (outs.map (fun s => coordsUpTo i s.points)).flatten = [] := by
    intro i hi
    rw [List.flatten_eq_nil_iff]
    intro l hl
    obtain ⟨s, hs, rfl⟩ := List.mem_map.mp hl
    exact coordsUpTo_have_not (fun p hp => by rw [h2 s hs p hp]; exact hi)
  constructor
  · simp only [Writer.zbox, zboxOf, hz 2 (by omega)]
    rfl
  · simp only [Writer.mbox, mboxOf, hz 3 (by omega)]
    rfl

/-- Measures 3 and 7; elevations -1 and 4. -/
example : Writer.mbox (Writer.mk [{ shapeType := some 23, points := [[0, 0, toy (-1), toy 3], [0, 0, toy 4, toy 7]] }] (some 23) [] [] : Writer Toy) = .ok [0, toy 7] ∧
    Writer.zbox (Writer.mk [{ shapeType := some 23, points := [[0, 0, toy (-1), toy 3], [0, 0, toy 4, toy 7]] }] (some 23) [] [] : Writer Toy) = .ok [toy (-1), toy 4] := by
  constructor <;> decide +kernel

/-! ### C136 -/

theorem content_0 (s : Shape D) : content s 0 = .ok ([0, 0, 0, 0], s) := by
  have h0 : packI 0 = .ok [0, 0, 0, 0] := by decide
  simp [content, body, writeIf, changeIf, boxed, parted, pointed, zed, measured, single, ok_bind, h0]

theorem readBody_0 (noM : Bool) (rest : List Byte) : readBody (D := D) noM ([0, 0, 0, 0] ++ rest) = .ok { shapeType := some 0 } := by
  have h0 : packI 0 = .ok [0, 0, 0, 0] := by decide
  simp only [readBody, readI_pack h0, ok_bind]
  simp [readIf, boxed, parted, pointed, zed, measured, single, ok_bind, truthy]

/-- All shapes of a file of type 0 are read as null shapes. -/
theorem read_0 {w w' : Writer D} {shp : List Byte} (h : w.saveShp = .ok (w', shp)) (hft : fileType w = some 0) (shx : Option (List Byte))
    (numRecords : Option Nat) : ∃ (r : Reader D), Reader.new shp shx numRecords = .ok r ∧ r.shp = shp ∧
      (∀ res, Shapes D r.noM r.shp 100 res ↔ res = .ok (List.replicate w.shapes.length { shapeType := some 0 })) := by
  obtain ⟨r, outs, h1, h2, h3, h4⟩ := saved_shapes (P := fun _ out => out = { shapeType := some 0 }) h hft (fun s _ noM rest t' bs s' hty hc => by
    rw [retype_ne (by omega)] at hty hc
    cases hty
    rw [content_0] at hc
    cases hc
    exact ⟨_, readBody_0 noM rest, rfl⟩) shx numRecords
  have : outs = List.replicate w.shapes.length { shapeType := some 0 } := by
    rw [List.eq_replicate_iff]
    refine ⟨h4.length_eq.symm, ?_⟩
    intro out ho
    obtain ⟨j, hj, rfl⟩ := List.mem_iff_getElem.mp ho
    exact List.Forall₂.get h4 (by rw [h4.length_eq]; exact hj) hj
  subst this
  exact ⟨r, h1, h2, h3⟩

theorem save_0 {w : Writer D} (hft : fileType w = some 0) (hne : w.shapes ≠ []) (hl : w.shapes.length ≤ 300000000) : ∃ w' shp, w.saveShp = .ok (w', shp) := by
  have hw : w.withType = .ok { w with shapeType := some 0 } := by
    simp only [Writer.withType, fileType] at hft ⊢
    split
    · rename_i hc
      rw [if_pos hc] at hft
      match hs : w.shapes, hne with
      | s :: ss, _ =>
        rw [hs] at hft
        simp at hft
        simp only [hft, hs]
    · rename_i hc
      rw [if_neg hc] at hft
      rw [hft] at hc
      simp at hc
  have hsum : (w.shapes.map (recordSize 0)).sum = 12 * w.shapes.length := by
    have : w.shapes.map (recordSize 0) = List.replicate w.shapes.length 12 := by
      rw [List.eq_replicate_iff]
      simp [recordSize]
    rw [this]
    have hr : ∀ n : Nat, (List.replicate n 12).sum = 12 * n := by
      intro n
      induction n with
      | zero => rfl
      | succ n ih => rw [List.replicate_succ, List.sum_cons, ih]; omega
    exact hr _
  have hsize : shpFileLength 0 w.shapes = .ok ((100 + 12 * w.shapes.length) / 2) := by
    rw [shpFileLength, sizesOf_eq (by simp [Sized]) (by simp [Parted]), hsum]
    rfl
  obtain ⟨b1, h1⟩ := mapM_exists (f := packBI) [9994, 0, 0, 0, 0, 0] (by
    intro a ha
    apply packBI_of <;> simp at ha <;> omega)
  obtain ⟨b2, h2⟩ := packBI_of (v := ((100 + 12 * w.shapes.length) / 2 : Nat)) (by omega) (by omega)
  have h3 := packI_of (v := 1000) (by omega) (by omega)
  have h4 := packI_of (v := 0) (by omega) (by omega)
  obtain ⟨z, hz⟩ := zboxOf_of w.shapes
  obtain ⟨m, hm⟩ := mboxOf_of w.shapes
  have hb : headerBox 0 w.shapes = .ok [0, 0, 0, 0] := by simp [headerBox]
  have hhead : ∃ hd, header (shpFileLength 0 w.shapes) 0 w.shapes = .ok hd :=
    ⟨_, by simp only [header, hsize, h1, h2, h3, h4, hb, hz, hm, ok_bind]; rfl⟩
  obtain ⟨hd, hhd⟩ := hhead
  have hlen := (header_ok hhd).choose_spec.choose_spec.2.2.1
  have hrecs : ∀ (ss : List (Shape D)) n, n + ss.length ≤ 2147483648 → ∃ rs ss', Recs (some 0) n ss rs ss' := by
    intro ss
    induction ss with
    | nil => exact fun n _ => ⟨[], [], .nil⟩
    | cons s ss ih =>
      intro n hn
      rw [List.length_cons] at hn
      obtain ⟨rs, ss', hr⟩ := ih (n + 1) (by omega)
      obtain ⟨bn, hbn⟩ := packBI_of (v := n) (by omega) (by omega)
      obtain ⟨bl, hbl⟩ := packBI_of (v := ((4 : Nat) / 2 : Nat)) (by omega) (by omega)
      exact ⟨(bn ++ (bl ++ [0, 0, 0, 0])) :: rs, _, .cons ⟨0, [0, 0, 0, 0], bn, bl, by rw [retype_ne (by omega)], content_0 _, hbn, hbl, rfl⟩ hr⟩
  obtain ⟨rs, ss', hrs⟩ := hrecs w.shapes 1 (by omega)
  obtain ⟨f', offs', lens', hloop, -⟩ := hrs.loop ((File.mk hd hd.length).seek 100) w.offsets w.lengths (by simp [File.seek, hlen])
  refine ⟨{ w with shapeType := some 0, shapes := ss', offsets := offs', lengths := lens' }, f'.data, ?_⟩
  simp only [Writer.saveShp, hw, ok_bind, number, hhd, hloop]
  rfl

/-- C136, what holds: a file with null shapes only can be saved, and they come back. Missing: files with other shapes, see below. -/
theorem C136_nulls_partial {w : Writer D} (ht : w.shapeType = none ∨ w.shapeType = some 0) (hne : w.shapes ≠ []) (hl : w.shapes.length ≤ 300000000)
    (hnull : ∀ s ∈ w.shapes, s = { shapeType := some 0 }) (shx : Option (List Byte)) (numRecords : Option Nat) :
    ∃ (w' : Writer D) (shp : List Byte) (r : Reader D), w.saveShp = .ok (w', shp) ∧ Reader.new shp shx numRecords = .ok r ∧ ∀ res, Shapes D r.noM r.shp 100 res ↔ res = .ok w.shapes := by
  have hft : fileType w = some 0 := by
    rw [fileType, if_pos ht]
    match hs : w.shapes, hne with
    | s :: ss, _ =>
      have := hnull s (by simp [hs])
      simp [this]
  obtain ⟨w', shp, h⟩ := save_0 hft hne hl
  obtain ⟨r, h1, h2, h3⟩ := read_0 h hft shx numRecords
  refine ⟨w', shp, r, h, h1, ?_⟩
  have : List.replicate w.shapes.length ({ shapeType := some 0 } : Shape D) = w.shapes := by
    symm
    rw [List.eq_replicate_iff]
    exact ⟨rfl, hnull⟩
  rwa [this] at h3

/-- C136 fails: a file of any other type cannot be saved with a null shape. -/
theorem C136_violated {w : Writer D} {t : Int} (ht : fileType w = some t) (h0 : t ≠ 0) (hnull : ∃ s ∈ w.shapes, s.points = []) :
    ∀ r, w.saveShp ≠ .ok r := by
  rintro ⟨w', shp⟩ h
  obtain ⟨box, z, m, hb, -⟩ := header_boxes h ht
  rw [headerBox, if_pos h0] at hb
  obtain ⟨s, hs, hp⟩ := hnull
  rw [bboxOf_bad (fun hc => hc.2.1 s hs hp)] at hb
  cases hb

/-- C136 fails: if the first shape is a null shape and the type of the file was not given, all others are lost: they are null shapes when the file
is read. -/
theorem C136_first_violated {w : Writer D} (ht : w.shapeType = none ∨ w.shapeType = some 0) {s : Shape D} {ss : List (Shape D)} (hs : w.shapes = s :: ss)
    (hnull : s.shapeType = some 0) (hl : w.shapes.length ≤ 300000000) (shx : Option (List Byte)) (numRecords : Option Nat) :
    ∃ (w' : Writer D) (shp : List Byte) (r : Reader D), w.saveShp = .ok (w', shp) ∧ Reader.new shp shx numRecords = .ok r ∧
      ∀ res, Shapes D r.noM r.shp 100 res ↔ res = .ok (List.replicate w.shapes.length { shapeType := some 0 }) := by
  have hft : fileType w = some 0 := by
    rw [fileType, if_pos ht, hs]
    simp [hnull]
  obtain ⟨w', shp, h⟩ := save_0 hft (by simp [hs]) hl
  obtain ⟨r, h1, h2, h3⟩ := read_0 h hft shx numRecords
  exact ⟨w', shp, r, h, h1, h3⟩

/-- A point file with a null shape, and a null shape with a point after it. -/
example : (Writer.null (Writer.point ({ shapeType := some 1 } : Writer Toy) (toy 1) (toy 2) 0 0)).saveShp.toOption = none ∧
    (Writer.poly (Writer.null ({} : Writer Toy)) [[[toy 1, toy 2], [toy 3, toy 4]]] 3 >>= fun w => do
      let (_, shp) ← w.saveShp
      let r ← Reader.new (D := Toy) shp none none
      let (s, _) ← shapeAt (D := Toy) r.noM r.shp 112
      return (w.shapes.map (fun s => s.points.length), s.points)) = .ok ([0, 2], []) := by
  constructor <;> decide +kernel

/-! ### C139 -/

/-- C139, what holds: opening a saved file of points, lines, polygons or multipoints without measures (or points with them) in an editor and saving
it works, gives the same records, and these are read as the same shapes. Missing: the other types, see below, and lines or polygons without parts. -/
theorem C139_reopened_partial {w w' : Writer D} {shp : List Byte} (h : w.saveShp = .ok (w', shp)) {t : Int} (hft : fileType w = some t)
    (ht : t = 1 ∨ t = 3 ∨ t = 5 ∨ t = 8 ∨ t = 11 ∨ t = 21) (hne : ∀ s ∈ w.shapes, s.parts ≠ some []) :
    ∃ e : Writer D, (∀ e', Opened shp e' ↔ e' = e) ∧ e.shapes.length = w.shapes.length ∧
      ∃ (e' : Writer D) (shp' : List Byte), e.saveShp = .ok (e', shp') ∧ shp'.drop 100 = shp.drop 100 ∧ (∀ e', Opened shp' e' ↔ e' = e) := by
  have hplain : Plain t := by simp only [Plain]; omega
  have hsized : Sized t := by simp only [Sized]; omega
  obtain ⟨t', n, m, hd, rs, hft', -, hsz, -, hhd, rfl, hrecs, -, -, hhead⟩ := saveShp_ok h
  rw [hft] at hft'
  cases hft'
  obtain ⟨outs, outs', hrecs', hread, hsizes, hgood⟩ := hrecs.again ht hne
  have hlen := hrecs'.length_ss.1.symm.trans hrecs.length_ss.1
  have hopen : ∀ {hd' : List Byte} {l' : Int} {m' : List D}, hd'.length = 100 → shpHeader (hd' ++ rs.flatten) = .ok (l', t, m') →
      ∀ e', Opened (hd' ++ rs.flatten) e' ↔ e' = ({ shapes := outs, shapeType := some t } : Writer D) := by
    intro hd' l' m' hl' hh' e'
    constructor
    · rintro ⟨h1, h2⟩
      rw [hh'] at h1
      cases h1
      have := hread (decide ((0 : D) ∈ m')) hd'
      rw [hl'] at this
      cases h2.det this
      rfl
    · rintro rfl
      have := hread (decide ((0 : D) ∈ m')) hd'
      rw [hl'] at this
      exact .mk hh' this
  refine ⟨{ shapes := outs, shapeType := some t }, hopen hhd hhead, hlen, ?_⟩
  have hne' : outs ≠ [] := by
    intro ho
    have hw : w.shapes = [] := by
      apply List.length_eq_zero_iff.mp
      rw [← hlen, ho]
      rfl
    obtain ⟨box, z, m, hb, -⟩ := header_boxes h hft
    rw [headerBox, if_pos (by omega), hw] at hb
    cases hb
  have hsize' : shpFileLength t outs = .ok n := by
    rw [shpFileLength, sizesOf_eq hsized (hrecs.size hsized).2] at hsz
    rw [shpFileLength, sizesOf_eq hsized (fun o ho => (hgood o ho).2), hsizes]
    exact hsz
  have hn : n ≤ 2147483647 := by
    simp only [Writer.saveShp, Py.bind_ok] at h
    obtain ⟨w1, hw1, t', ht', hd', hhd', -⟩ := h
    rw [withType_ok hw1] at ht' hhd'
    have ht' := number_ok ht'
    dsimp only at ht' hhd'
    rw [hft] at ht'
    cases ht'
    simp only [header, Py.bind_ok] at hhd'
    obtain ⟨b1, h1, n', hn, b2, h2, -⟩ := hhd'
    rw [hsz] at hn
    cases hn
    simp only [packBI, Py.bind_ok] at h2
    obtain ⟨b, hb, -⟩ := h2
    simp only [packI] at hb
    split at hb
    · omega
    · cases hb
  obtain ⟨hd', hhd'⟩ := header_of hn hplain hne' (fun o ho => ⟨(hgood o ho).1.1, fun p hp => by rw [(hgood o ho).1.2 p hp]⟩)
  obtain ⟨n', m', hn', -, hlen', hread', -⟩ := header_ok hhd'
  obtain ⟨f', offs', lens', hloop, hdata⟩ := hrecs'.loop ((File.mk hd' hd'.length).seek 100) [] [] (by simp [File.seek, hlen'])
  refine ⟨{ shapes := outs', shapeType := some t, offsets := offs', lengths := lens' }, f'.data, ?_, ?_, ?_⟩
  · have ht0 : ¬ ((some t : Option Int) = none ∨ (some t : Option Int) = some 0) := by simp; omega
    simp only [Writer.saveShp, Writer.withType, if_neg ht0, ok_bind, number, hsize', hhd', hloop]
    rfl
  · have e : f'.data = hd' ++ rs.flatten := by simpa [File.seek] using hdata
    rw [e, List.drop_left' hlen', List.drop_left' hhd]
  · have e : f'.data = hd' ++ rs.flatten := by simpa [File.seek] using hdata
    rw [e]
    exact hopen hlen' (hread' _)

/-- C139 fails for types with measures of several points: whatever the file is, an editor that opened it and has a shape with a point cannot save it. -/
theorem C139_violated {shp : List Byte} {e : Writer D} (h : Opened shp e) {t : Int} (hft : e.shapeType = some t) (ht : t ∈ measured)
    {s : Shape D} (hs : s ∈ e.shapes) (hp : s.points ≠ []) (h31 : t = 31 → s.shapeType = some 31) : ∀ r, e.saveShp ≠ .ok r := by
  rintro ⟨e', shp'⟩ hsave
  obtain ⟨hh, hsh⟩ := h
  rename_i l t' m outs
  have h2 := hsh.two outs rfl s hs
  cases hft
  have ht0 : t ≠ 0 := by rintro rfl; simp [measured] at ht
  obtain ⟨t', n, m', hd, rs, hft', -, -, -, -, -, hrecs, -⟩ := saveShp_ok hsave
  have : fileType ({ shapes := outs, shapeType := some t } : Writer D) = some t := by simp [fileType, ht0]
  rw [this] at hft'
  cases hft'
  have key : ∀ (n : Nat) (ss rs' ss'), Recs (some t) n ss rs' ss' → s ∈ ss → ∃ bs s', content (retype (some t) s) t = .ok (bs, s') := by
    intro n ss rs' ss' hr
    generalize hw : some t = w at hr
    induction hr with
    | nil => simp
    | cons hr _ ih =>
      subst hw
      intro hmem
      rcases List.mem_cons.mp hmem with rfl | hmem
      · obtain ⟨t', bs, bn, bl, hty, hc, -⟩ := hr
        have : t' = t := by
          by_cases h : t = 31
          · subst h
            rw [retype_31, h31 rfl] at hty
            cases hty; rfl
          · rw [retype_ne h] at hty
            cases hty; rfl
        subst this
        exact ⟨bs, _, hc⟩
      · exact ih hmem
  obtain ⟨bs, s', hc⟩ := key _ _ _ _ hrecs hs
  have h4 := content_measured ht hc
  have hpts : (retype (some t) s).points = s.points := by
    simp only [retype]
    split <;> rfl
  rw [hpts] at h4
  match hq : s.points, hp with
  | p :: ps, _ =>
    have a := h2 p (by simp [hq])
    have b := h4 p (by simp [hq])
    omega

/-- C139 fails: every saved file of lines or polygons with measures can be opened in an editor, and none can be saved again. -/
theorem C139_measures_violated {w w' : Writer D} {shp : List Byte} (h : w.saveShp = .ok (w', shp)) {t : Int} (hft : fileType w = some t)
    (ht : t = 23 ∨ t = 25) : ∃ e : Writer D, Opened shp e ∧ List.Forall₂ (Same t) w.shapes e.shapes ∧ ∀ r, e.saveShp ≠ .ok r := by
  obtain ⟨r, outs, hr, hshp, hs, hall⟩ := C84_saved_shapes_read_back h hft (by simp only [Plain]; omega) none none
  have hbox := header_boxes h hft
  obtain ⟨t', n, m, hd, rs, hft', -, -, -, -, -, -, -, -, hhead⟩ := saveShp_ok h
  rw [hft] at hft'
  cases hft'
  simp only [Reader.new, hhead, ok_bind] at hr
  cases hr
  have hopen : Opened shp ({ shapes := outs, shapeType := some t } : Writer D) := .mk hhead ((hs _).mpr rfl)
  refine ⟨_, hopen, hall, ?_⟩
  -- there is a shape with a point
  obtain ⟨box, z, m', hb, -⟩ := hbox
  rw [headerBox, if_pos (by omega)] at hb
  have hgood : Boxed w.shapes := by
    by_contra hc
    rw [bboxOf_bad hc] at hb
    cases hb
  obtain ⟨hne, hpts, -⟩ := hgood
  match hw : w.shapes, hne with
  | s :: ss, _ =>
    rw [hw] at hall
    cases hall with
    | cons h1 h2 =>
      rename_i o os
      refine C139_violated hopen rfl (by rcases ht with rfl | rfl <;> simp [measured]) (s := o) (by simp) ?_ (by omega)
      have := hpts s (by simp [hw])
      rw [h1.points, planar, if_neg (by omega)]
      simpa using this

/-- The example with two polygons can be saved, so it can be opened and saved again; and a line with a measure that can be saved. -/
example : exampleWriter.saveShp.toOption.isSome = true ∧ fileType exampleWriter = some 5 ∧ (∀ s ∈ exampleWriter.shapes, s.parts ≠ some []) ∧
    (Writer.poly ({ shapeType := some 23 } : Writer Toy) [[[0, 0, 0, toy 1], [toy 5, 0, 0, toy 2]]] 23 >>= fun w => w.saveShp).toOption.isSome = true := by
  refine ⟨?_, ?_, ?_, ?_⟩ <;> decide +kernel

end

end Shapefile
end Coral
