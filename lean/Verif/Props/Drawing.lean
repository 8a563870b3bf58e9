import Verif.Spec.Drawing
import Verif.Props.Vector
import Mathlib.Tactic.Linarith

/-! # Properties of texts, circles and rounded polygons on a canvas (C127-C130) -/
set_option linter.unusedSectionVars false
namespace Coral
namespace Vector
open PS

variable {K : Type} [Field K] [LinearOrder K] [IsStrictOrderedRing K]

theorem plain_with {pre post : List (Call K)} {call : Call K} (h1 : ∀ c ∈ pre, PlainCall c) (h2 : PlainCall call)
    (h3 : ∀ c ∈ post, PlainCall c) : ∀ c ∈ pre ++ call :: post, PlainCall c := by
  intro c hc
  rcases List.mem_append.mp hc with h | h
  · exact h1 c h
  · rcases List.mem_cons.mp h with rfl | h
    · exact h2
    · exact h3 c h

theorem draw_paints (env : Env K) (m : CTM K) : ∀ (calls : List (Call K)) (heap : Nat → List K) (pen : Pen K),
    (pen.draw env m heap calls).2.length = (calls.map paints).sum := by
  intro calls
  induction calls with
  | nil => intro heap pen; rfl
  | cons call calls ih =>
    intro heap pen
    simp only [Pen.draw, List.length_append, ih, List.map_cons, List.sum_cons, Nat.add_right_cancel_iff]
    cases call with
    | circle c r f s => cases f <;> cases s <;> rfl
    | rounded ps r f s => cases f <;> cases s <;> rfl
    | polygon ps f s => cases ps <;> cases f <;> cases s <;> rfl
    | polyline ps s => cases ps <;> rfl
    | _ => rfl

/-- What one call in the middle of a history puts on the page. -/
theorem one_call (env : Env K) {heap heap' : Nat → List K} (h0 : heap 0 = []) {bg : Option (Ink K)} (hbg : PlainBg bg)
    {pre post : List (Call K)} {call : Call K} (hp : ∀ c ∈ pre ++ call :: post, PlainCall c) {c : Canvas K}
    (hr : runCalls heap (Canvas.new bg) (pre ++ call :: post) = .ok (heap', c)) {size : Option K} {margin : K}
    {file : List (Line K)} (hs : c.save size margin = .ok file) :
    ∃ σ before shapes after, Runs env file.flatten σ ∧ σ.page = before ++ shapes ++ after ∧ after.length = (post.map paints).sum ∧
      shapes.map noInk = ((((firstPen bg).draw env (mapOf c.bbox size margin) heap pre).1.call env (mapOf c.bbox size margin)
        (pre.foldl heapAfter heap) call).2).map noInk := by
  obtain ⟨σ, Q, h1, _, _, h2, h3, _⟩ := file_runs env h0 hbg hp hr hs
  rw [draw_append, List.map_append] at h3
  obtain ⟨Q1, Q2, rfl, e1, e2⟩ := List.map_eq_append_iff.mp h3
  simp only [Pen.draw, List.map_append] at e2
  obtain ⟨Q3, Q4, rfl, e3, e4⟩ := List.map_eq_append_iff.mp e2
  refine ⟨σ, bgPaint c.bbox.x0 c.bbox.y0 c.bbox.x1 c.bbox.y1 margin bg size ++ Q1, Q3, Q4, h1, by rw [h2]; simp only [List.append_assoc], ?_, e3⟩
  have := congrArg List.length e4
  rw [List.length_map, List.length_map, draw_paints] at this
  exact this

/-! ### C127: texts -/

theorem shape_moves {pen : Pen K} {path : List (Seg K)} {f s : Option (Ink K)} (h : f ≠ none ∨ s ≠ none) :
    (pen.shape path f s).1.path = [] := by
  cases f <;> cases s <;> first | rfl | simp at h

theorem onlyMoves_nil : OnlyMoves ([] : List (Seg K)) := by intro s hs; cases hs

/-- Nothing but starting points is pending when everything drawn was painted. -/
theorem draw_moves (env : Env K) (m : CTM K) : ∀ (calls : List (Call K)) (heap : Nat → List K) (pen : Pen K), (∀ c ∈ calls, Painted c) →
    OnlyMoves pen.path → OnlyMoves (pen.draw env m heap calls).1.path := by
  intro calls
  induction calls with
  | nil => intro heap pen _ h; exact h
  | cons call calls ih =>
    intro heap pen hp h
    simp only [Pen.draw]
    refine ih _ _ (fun c hc => hp c (List.mem_cons_of_mem _ hc)) ?_
    have hpc := hp call List.mem_cons_self
    cases call with
    | circle c r f s => rw [Pen.call, shape_moves hpc]; exact onlyMoves_nil
    | polygon ps f s =>
      rw [Pen.call]
      split
      · exact h
      · rename_i hne
        rw [shape_moves (hpc.resolve_left hne)]; exact onlyMoves_nil
    | rounded ps r f s => rw [Pen.call, shape_moves hpc]; exact onlyMoves_nil
    | polyline ps s =>
      rw [Pen.call]
      split
      · exact h
      · exact onlyMoves_nil
    | text pos t size font anchor =>
      simp only [Pen.call]
      intro s hs
      rcases List.mem_append.mp hs with hs | hs
      · exact h s hs
      · simp only [List.mem_cons, List.not_mem_nil, or_false] at hs
        rcases hs with rfl | rfl | rfl <;> exact ⟨_, rfl⟩
    | setgray => exact h
    | setcolor => exact h
    | setink => exact h
    | setwidth => exact h
    | setdash => exact h
    | image => exact h
    | resetbbox => exact h
    | mutate => exact h

theorem anchor_shift (anchor : String) (ha : anchor ∈ ["c", "t", "tr", "r", "br", "b", "bl", "l", "tl"]) (e : K × K × K × K) (p : K × K) :
    anchorOf anchor (textBox e (p.1 + (anchorOffset anchor (e.2.2.1 - e.1) (e.2.2.2 - e.2.1)).1,
      p.2 + (anchorOffset anchor (e.2.2.1 - e.1) (e.2.2.2 - e.2.1)).2)) = (p.1 + e.1, p.2 + e.2.1) := by
  have h2 : (2 : K) ≠ 0 := two_ne_zero
  simp only [List.mem_cons, List.not_mem_nil, or_false] at ha
  rcases ha with rfl | rfl | rfl | rfl | rfl | rfl | rfl | rfl | rfl <;>
    simp only [anchorOf, textBox, anchorOffset, List.mem_cons, List.not_mem_nil, or_false, or_self, or_true, true_or, false_or, reduceIte, String.reduceEq, Prod.mk.injEq] <;>
    refine ⟨?_, ?_⟩ <;> (try field_simp) <;> ring

theorem text_anchor {pos : K × K} {t : List Char} {tsize : K} {font anchor : String} {heap : Nat → List K} {c c' : Canvas K}
    (h : c.call heap (.text pos t tsize font anchor) = .ok c') : anchor ∈ ["c", "t", "tr", "r", "br", "b", "bl", "l", "tl"] := by
  simp only [Canvas.call, Canvas.addtext] at h
  split at h
  · cases h
  · rename_i ha
    exact not_not.mp ha

/-- **C127**, what holds: the text is drawn once, at its size and font, and the point of its box that the anchor names is off the given
position by the lower left corner `(e.1, e.2.1)` of the box that the text has at the origin, whatever the anchor. -/
theorem C127_displaced_partial (env : Env K) (ext : List Char → String → K → K × K × K × K) (henv : Measures env ext)
    {heap heap' : Nat → List K} (h0 : heap 0 = []) {bg : Option (Ink K)} (hbg : PlainBg bg)
    {pre post : List (Call K)} (hp : ∀ c ∈ pre, PlainCall c ∧ Painted c) (hq : ∀ c ∈ post, PlainCall c)
    {pos : K × K} {t : List Char} (ht : PlainString t) {tsize : K} {font anchor : String} {c : Canvas K}
    (hr : runCalls heap (Canvas.new bg) (pre ++ .text pos t tsize font anchor :: post) = .ok (heap', c)) {size : Option K} {margin : K}
    {file : List (Line K)} (hs : c.save size margin = .ok file)
    (hx : (mapOf c.bbox size margin).sx ≠ 0) (hy : (mapOf c.bbox size margin).sy ≠ 0) :
    ∃ σ before after ink start, Runs env file.flatten σ ∧
      σ.page = before ++ [.text t font tsize ((mapOf c.bbox size margin).apply start.1 start.2) (mapOf c.bbox size margin) ink] ++ after ∧
      after.length = (post.map paints).sum ∧
      anchorOf anchor (textBox (ext t font tsize) start) = (pos.1 + (ext t font tsize).1, pos.2 + (ext t font tsize).2.1) := by
  have ha : anchor ∈ ["c", "t", "tr", "r", "br", "b", "bl", "l", "tl"] := by
    obtain ⟨h1, c1, hr1, hr2⟩ := runCalls_append hr
    rw [runCalls] at hr2
    obtain ⟨c2, h2, _⟩ := Py.bind_ok.mp hr2
    exact text_anchor h2
  obtain ⟨σ, before, shapes, after, h1, h2, hlen, h3⟩ := one_call env h0 hbg
    (plain_with (fun c hc => (hp c hc).1) (show PlainCall (.text pos t tsize font anchor) from ht) hq) hr hs
  have hm := draw_moves env (mapOf c.bbox size margin) pre heap (firstPen bg) (fun c hc => (hp c hc).2) (by
    show OnlyMoves ([] : List (Seg K))
    exact onlyMoves_nil)
  generalize mapOf c.bbox size margin = m at *
  generalize hpen : ((firstPen bg).draw env m heap pre).1 = pen at h3 hm
  have hbox := henv m hx hy (pen.path ++ [.move (m.apply pos.1 pos.2)]) (by
    intro s hs
    rcases List.mem_append.mp hs with hs | hs
    · exact hm s hs
    · rw [List.mem_singleton] at hs; exact ⟨_, hs⟩) pos.1 pos.2 t font tsize
  rw [List.append_assoc] at hbox
  simp only [Pen.call, List.map_cons, List.map_nil, noInk] at h3
  rw [show [Seg.move (m.apply pos.1 pos.2), Seg.chars (m.apply pos.1 pos.2) t font tsize] =
    [Seg.move (m.apply pos.1 pos.2)] ++ [Seg.chars (m.apply pos.1 pos.2) t font tsize] from rfl, hbox] at h3
  obtain ⟨x, l, rfl, ex, el⟩ := List.map_eq_cons_iff.mp h3
  rw [List.map_eq_nil_iff] at el
  subst el
  have hdx : (textBox (ext t font tsize) pos).2.2.1 - (textBox (ext t font tsize) pos).1 = (ext t font tsize).2.2.1 - (ext t font tsize).1 := by
    simp [textBox]
  have hdy : (textBox (ext t font tsize) pos).2.2.2 - (textBox (ext t font tsize) pos).2.1 = (ext t font tsize).2.2.2 - (ext t font tsize).2.1 := by
    simp [textBox]
  cases x with
  | text t' f' s' q m' ink =>
    simp only [noInk, Paint.text.injEq, and_true] at ex
    obtain ⟨rfl, rfl, rfl, rfl, rfl⟩ := ex
    refine ⟨σ, before, after, ink, (pos.1 + (anchorOffset anchor ((ext t' f' s').2.2.1 - (ext t' f' s').1) ((ext t' f' s').2.2.2 - (ext t' f' s').2.1)).1,
      pos.2 + (anchorOffset anchor ((ext t' f' s').2.2.1 - (ext t' f' s').1) ((ext t' f' s').2.2.2 - (ext t' f' s').2.1)).2), h1, ?_, hlen, anchor_shift anchor ha _ _⟩
    rw [h2]
    rw [hdx, hdy]
    congr 4
    simp only [CTM.apply, Prod.mk.injEq]
    constructor <;> ring
  | fill => simp [noInk] at ex
  | stroke => simp [noInk] at ex
  | image => simp [noInk] at ex

/-- The anchor is at the given position exactly when the box of the glyphs has its lower left corner where the text starts: no
descender, no space before the first letter. -/
theorem C127_exact_partial (env : Env K) (ext : List Char → String → K → K × K × K × K) (henv : Measures env ext)
    {heap heap' : Nat → List K} (h0 : heap 0 = []) {bg : Option (Ink K)} (hbg : PlainBg bg)
    {pre post : List (Call K)} (hp : ∀ c ∈ pre, PlainCall c ∧ Painted c) (hq : ∀ c ∈ post, PlainCall c)
    {pos : K × K} {t : List Char} (ht : PlainString t) {tsize : K} {font anchor : String} {c : Canvas K}
    (hr : runCalls heap (Canvas.new bg) (pre ++ .text pos t tsize font anchor :: post) = .ok (heap', c)) {size : Option K} {margin : K}
    {file : List (Line K)} (hs : c.save size margin = .ok file)
    (hx : (mapOf c.bbox size margin).sx ≠ 0) (hy : (mapOf c.bbox size margin).sy ≠ 0) :
    ∃ σ before after ink start, Runs env file.flatten σ ∧
      σ.page = before ++ [.text t font tsize ((mapOf c.bbox size margin).apply start.1 start.2) (mapOf c.bbox size margin) ink] ++ after ∧
      after.length = (post.map paints).sum ∧
      (anchorOf anchor (textBox (ext t font tsize) start) = pos ↔ (ext t font tsize).1 = 0 ∧ (ext t font tsize).2.1 = 0) := by
  obtain ⟨σ, before, after, ink, start, h1, h2, h3, h4⟩ := C127_displaced_partial env ext henv h0 hbg hp hq ht hr hs hx hy
  refine ⟨σ, before, after, ink, start, h1, h2, h3, ?_⟩
  rw [h4, Prod.ext_iff]
  simp

/-- A font for the examples: every text is 5 wide and reaches from 2 below its line to 7 above. -/
def toyFont : List Char → String → ℚ → ℚ × ℚ × ℚ × ℚ := fun _ _ _ => (0, -2, 5, 7)

/-- A machine that measures texts in that font. -/
def toyEnv : Env ℚ :=
  ⟨fun m path => match path.getLast? with
    | some (.chars p t f s) => textBox (toyFont t f s) ((p.1 - m.tx) / m.sx, (p.2 - m.ty) / m.sy)
    | _ => (0, 0, 0, 0), fun _ _ => (0, 0, 0, 0), fun _ _ _ => (5, 0)⟩

theorem toy_measures : Measures toyEnv toyFont := by
  intro m hx hy path _ x y t font size
  simp only [toyEnv, List.getLast?_concat, CTM.apply, textBox]
  rw [show (m.sx * x + m.tx - m.tx) / m.sx = x by field_simp; ring, show (m.sy * y + m.ty - m.ty) / m.sy = y by field_simp; ring]

/-- **C127 fails** for letters that reach below the line: the text `Jaguar`, to be centred on `(2, 2)`, is centred on `(2, 0)`. -/
theorem C127_violated : ∃ heap' c file σ before after ink start,
    runCalls (fun _ => []) (Canvas.new none) ([.polygon tri none (some (.num 0))] ++ .text (2, 2) "Jaguar".toList 12 "Times-Bold" "c" :: []) = .ok (heap', c) ∧
    c.save none 0 = .ok file ∧ Runs toyEnv file.flatten σ ∧
    σ.page = before ++ [.text "Jaguar".toList "Times-Bold" 12 start ⟨1, 1, 0, 0⟩ ink] ++ after ∧ after = [] ∧
    anchorOf "c" (textBox (toyFont "Jaguar".toList "Times-Bold" 12) start) = (2, 0) := by
  obtain ⟨heap', c, file, h1, h2⟩ := goes_through (heap := fun _ => []) (bg := none)
    (calls := [.polygon tri none (some (.num 0))] ++ .text (2, 2) "Jaguar".toList 12 "Times-Bold" "c" :: []) (size := none) (margin := 0) (by decide +kernel)
  obtain ⟨σ, before, after, ink, start, h3, h4, h5, h6⟩ := C127_displaced_partial toyEnv toyFont toy_measures rfl (bg := none) (by rintro i ⟨⟩)
    (pre := [.polygon tri none (some (.num 0))]) (post := []) (by simp [PlainCall, Painted]) (by simp)
    (by simp [PlainString, balanced_iff, nest]) h1 h2 (by simp [mapOf, pageMap]) (by simp [mapOf, pageMap])
  refine ⟨heap', c, file, σ, before, after, ink, start, h1, h2, h3, ?_, by simpa using h5, ?_⟩
  · rw [h4]
    simp [mapOf, pageMap, CTM.apply]
  · rw [h6]
    simp [toyFont]

/-! ### C128: what a text says -/

/-- **C128**, exactly: in the line that `addtext` writes for a text, from the opening parenthesis on, an interpreter reads the text as given
and goes on after the closing parenthesis, if and only if the parentheses of the text are balanced and it holds neither a backslash nor a
carriage return. -/
theorem C128_text_partial (t rest : List Char) : scanLit ('(' :: (t ++ ')' :: rest)) = some (t, rest) ↔ PlainString t := scan_iff t rest

/-- That is what the line starts with. -/
theorem C128_line {c c' : Canvas K} {heap : Nat → List K} {pos : K × K} {t : List Char} {tsize : K} {font anchor : String}
    (h : c.call heap (.text pos t tsize font anchor) = .ok c') : ∃ rest : Line K, c'.lines = c.lines ++ [.raw ('(' :: (t ++ [')'])) :: rest] := by
  simp only [Canvas.call, Canvas.addtext] at h
  split at h
  · cases h
  · cases h
    exact ⟨_, rfl⟩

/-- **C128 fails** without an escape: the text `a) b` is read as `a`, of `C:\temp` the backslash and the `t` are read as a tab, and `1 (of 3`
runs on into the rest of the file. -/
theorem C128_violated (rest : List Char) (h : ')' ∉ rest) :
    scanLit ('(' :: ("a) b".toList ++ ')' :: rest)) = some (['a'], " b)".toList ++ rest) ∧
    scanLit ('(' :: ("C:\\temp".toList ++ ')' :: rest)) = some ("C:\temp".toList, rest) ∧
    scanLit ('(' :: ("1 (of 3".toList ++ ')' :: rest)) = none := by
  refine ⟨by simp [scanLit, scanStr], by simp [scanLit, scanStr, octDigit, escChar], ?_⟩
  rw [scanLit]
  cases hs : scanStr .plain 0 ("1 (of 3".toList ++ ')' :: rest) with
  | none => rfl
  | some p =>
    obtain ⟨w, hw, _, _, hp⟩ := scan_back _ _ _ _ _ hs
    have hwt : w = "1 (of 3".toList := by
      rcases List.append_eq_append_iff.mp hw with ⟨a, e1, e2⟩ | ⟨a, e1, e2⟩
      · cases a with
        | nil => simpa using e1
        | cons x a =>
          exfalso
          simp only [List.cons_append, List.cons.injEq] at e2
          exact h (by rw [e2.2]; simp)
      · cases a with
        | nil => simpa using e1.symm
        | cons x a =>
          exfalso
          simp only [List.cons_append, List.cons.injEq] at e2
          have : ')' ∈ "1 (of 3".toList := by rw [e1, ← e2.1]; simp
          revert this; decide
    have := (hp (.inl rfl) (by rw [hwt]; decide)).2
    rw [hwt] at this
    exact absurd this (by decide)

example : PlainString "Rio de Janeiro (RJ)".toList := by simp [PlainString, balanced_iff, nest]

/-! ### C129: circles -/

theorem draw_clean (env : Env K) (m : CTM K) : ∀ (calls : List (Call K)) (heap : Nat → List K) (pen : Pen K) (b : Bool),
    (b = true ↔ pen.path = []) → (clean b calls = true ↔ (pen.draw env m heap calls).1.path = []) := by
  intro calls
  induction calls with
  | nil => intro heap pen b h; exact h
  | cons call calls ih =>
    intro heap pen b h
    simp only [Pen.draw]
    have hsh : ∀ (path : List (Seg K)) (f s : Option (Ink K)), path ≠ [] → ((f.isSome || s.isSome) = true ↔ (pen.shape path f s).1.path = []) := by
      intro path f s hp
      cases f <;> cases s <;> simp [Pen.shape, hp]
    cases call with
    | circle c r f s => rw [clean]; exact ih _ _ _ (by rw [Pen.call]; exact hsh _ _ _ (by simp))
    | rounded ps r f s => rw [clean]; exact ih _ _ _ (by rw [Pen.call]; exact hsh _ _ _ (by simp))
    | polygon ps f s =>
      rw [clean]
      refine ih _ _ _ ?_
      rw [Pen.call]
      cases ps with
      | nil => exact h
      | cons p ps => simpa using hsh (polyPath m (p :: ps) ++ [.close]) f s (by simp)
    | polyline ps s =>
      rw [clean]
      refine ih _ _ _ ?_
      rw [Pen.call]
      cases ps with
      | nil => exact h
      | cons p ps => simp
    | text pos t size font anchor =>
      rw [clean]
      refine ih _ _ _ ?_
      simp [Pen.call]
    | setgray => rw [clean]; exact ih _ _ _ h
    | setcolor => rw [clean]; exact ih _ _ _ h
    | setink => rw [clean]; exact ih _ _ _ h
    | setwidth => rw [clean]; exact ih _ _ _ h
    | setdash => rw [clean]; exact ih _ _ _ h
    | image => rw [clean]; exact ih _ _ _ h
    | resetbbox => rw [clean]; exact ih _ _ _ h
    | mutate => rw [clean]; exact ih _ _ _ h

/-- **C129**, exactly: what a circle puts on the page (its fill, its stroke, or both) has as its path what was left over from earlier calls,
and then the circle; it is the circle alone if and only if no text and no shape without fill and stroke was drawn since the last painted shape. -/
theorem C129_circle_partial (env : Env K) {heap heap' : Nat → List K} (h0 : heap 0 = []) {bg : Option (Ink K)} (hbg : PlainBg bg)
    {pre post : List (Call K)} (hp : ∀ c ∈ pre, PlainCall c) (hq : ∀ c ∈ post, PlainCall c) {center : K × K} {radius : K} {fill stroke : Option (Ink K)}
    {c : Canvas K} (hr : runCalls heap (Canvas.new bg) (pre ++ .circle center radius fill stroke :: post) = .ok (heap', c)) {size : Option K} {margin : K}
    {file : List (Line K)} (hs : c.save size margin = .ok file) :
    ∃ σ before shapes after left, Runs env file.flatten σ ∧ σ.page = before ++ shapes ++ after ∧ after.length = (post.map paints).sum ∧
      shapes.map pathOf = List.replicate ((if fill.isSome then 1 else 0) + (if stroke.isSome then 1 else 0))
        (left ++ [.arc ((mapOf c.bbox size margin).apply center.1 center.2)
          ((mapOf c.bbox size margin).sx * radius, (mapOf c.bbox size margin).sy * radius) 0 360, .close]) ∧
      (left = [] ↔ clean true pre = true) := by
  obtain ⟨σ, before, shapes, after, h1, h2, hlen, h3⟩ := one_call env h0 hbg
    (plain_with hp (show PlainCall (.circle center radius fill stroke) from trivial) hq) hr hs
  refine ⟨σ, before, shapes, after, ((firstPen bg).draw env (mapOf c.bbox size margin) heap pre).1.path, h1, h2, hlen, ?_, ?_⟩
  · rw [pathOf_noInk h3]
    cases fill <;> cases stroke <;> rfl
  · exact (draw_clean env _ pre heap (firstPen bg) true (by simp [firstPen])).symm

/-- **C129 fails** after any text: the path of the circle starts where the text ended, and a line leads from there to the circle. -/
theorem C129_violated (env : Env K) {heap heap' : Nat → List K} (h0 : heap 0 = []) {bg : Option (Ink K)} (hbg : PlainBg bg)
    {pre post : List (Call K)} (hp : ∀ c ∈ pre, PlainCall c) (hq : ∀ c ∈ post, PlainCall c) {pos : K × K} {t : List Char} (ht : PlainString t)
    {tsize : K} {font anchor : String} {center : K × K} {radius : K} {fill stroke : Option (Ink K)} {c : Canvas K}
    (hr : runCalls heap (Canvas.new bg) ((pre ++ [.text pos t tsize font anchor]) ++ .circle center radius fill stroke :: post) = .ok (heap', c))
    {size : Option K} {margin : K} {file : List (Line K)} (hs : c.save size margin = .ok file) :
    ∃ σ before shapes after left q, Runs env file.flatten σ ∧ σ.page = before ++ shapes ++ after ∧ after.length = (post.map paints).sum ∧
      shapes.map pathOf = List.replicate ((if fill.isSome then 1 else 0) + (if stroke.isSome then 1 else 0))
        (left ++ [.move q, .arc ((mapOf c.bbox size margin).apply center.1 center.2)
          ((mapOf c.bbox size margin).sx * radius, (mapOf c.bbox size margin).sy * radius) 0 360, .close]) := by
  obtain ⟨σ, before, shapes, after, h1, h2, hlen, h3⟩ := one_call env h0 hbg
    (plain_with (plain_with hp (show PlainCall (.text pos t tsize font anchor) from ht) (by simp))
      (show PlainCall (.circle center radius fill stroke) from trivial) hq) hr hs
  rw [draw_append] at h3
  simp only [Pen.draw] at h3
  generalize mapOf c.bbox size margin = m at *
  generalize ((firstPen bg).draw env m heap pre).1 = pen at h3
  obtain ⟨left, q, e⟩ : ∃ left q, (pen.call env m (pre.foldl heapAfter heap) (.text pos t tsize font anchor)).1.path = left ++ [.move q] :=
    ⟨_, _, by simp only [Pen.call]; exact (List.append_assoc _ [_, _] [_]).symm⟩
  refine ⟨σ, before, shapes, after, left, q, h1, h2, hlen, ?_⟩
  rw [pathOf_noInk h3]
  have hc : ∀ (pen : Pen K) (h : Nat → List K), (pen.call env m h (.circle center radius fill stroke)).2.map pathOf =
      List.replicate ((if fill.isSome then 1 else 0) + (if stroke.isSome then 1 else 0))
        (pen.path ++ [.arc (m.apply center.1 center.2) (m.sx * radius, m.sy * radius) 0 360, .close]) := by
    intro pen h
    cases fill <;> cases stroke <;> rfl
  rw [hc, e, List.append_assoc]
  rfl

/-- Two circles are drawn as circles; a circle after a text is not. -/
example : clean true ([.circle (1, 1) 1 (some (.num 1)) none, .setwidth 2, .circle (1, 1) 1 none (some (.num 0))] : List (Call ℚ)) = true ∧
    clean true ([.circle (1, 1) 1 (some (.num 1)) none, .text (0, 0) "x".toList 12 "Times-Bold" "c", .setwidth 2] : List (Call ℚ)) = false := by
  decide

example : ∃ heap' c file σ before shapes after left, runCalls (fun _ => []) (Canvas.new none)
      ([.polygon tri (some (.num 1)) none] ++ .circle (1, 1) 1 (some (.num (1 / 2))) (some (.num 0)) :: [.polyline tri none]) = .ok (heap', c) ∧
    c.save none 0 = .ok file ∧ Runs noEnv file.flatten σ ∧ σ.page = before ++ shapes ++ after ∧ after.length = 1 ∧ left = [] ∧
    shapes.map pathOf = List.replicate 2 (left ++ [.arc (1, 1) (1, 1) 0 360, .close]) := by
  obtain ⟨heap', c, file, h1, h2⟩ := goes_through (heap := fun _ => []) (bg := none)
    (calls := [.polygon tri (some (.num 1)) none] ++ .circle (1, 1) 1 (some (.num (1 / 2))) (some (.num 0)) :: [.polyline tri none])
    (size := none) (margin := 0) (by decide +kernel)
  obtain ⟨σ, before, shapes, after, left, h3, h4, h5, h6, h7⟩ := C129_circle_partial noEnv rfl (bg := none) (by rintro i ⟨⟩)
    (pre := [.polygon tri (some (.num 1)) none]) (post := [.polyline tri none]) (by simp [PlainCall]) (by simp [PlainCall]) h1 h2
  refine ⟨heap', c, file, σ, before, shapes, after, left, h1, h2, h3, h4, by rw [h5]; rfl, h7.2 rfl, ?_⟩
  rw [h6]
  simp [mapOf, pageMap, CTM.apply]

/-! ### C130: the operand stack -/

/-- **C130**, exactly: a saved file leaves four operands on the stack for every corner of every rounded polygon, and nothing else. -/
theorem C130_operands_partial (env : Env K) {heap heap' : Nat → List K} (h0 : heap 0 = []) {bg : Option (Ink K)} (hbg : PlainBg bg)
    {calls : List (Call K)} (hp : ∀ call ∈ calls, PlainCall call) {c : Canvas K}
    (hr : runCalls heap (Canvas.new bg) calls = .ok (heap', c)) {size : Option K} {margin : K} {file : List (Line K)}
    (hs : c.save size margin = .ok file) : ∃ σ, Runs env file.flatten σ ∧ σ.stack.length = (calls.map spill).sum := by
  obtain ⟨σ, Q, h1, h2, _⟩ := file_runs env h0 hbg hp hr hs
  exact ⟨σ, h1, h2.2⟩

/-- A file without rounded polygons leaves the stack empty. -/
theorem C130_empty_partial (env : Env K) {heap heap' : Nat → List K} (h0 : heap 0 = []) {bg : Option (Ink K)} (hbg : PlainBg bg)
    {calls : List (Call K)} (hp : ∀ call ∈ calls, PlainCall call) (hn : ∀ ps r f s, .rounded ps r f s ∉ calls) {c : Canvas K}
    (hr : runCalls heap (Canvas.new bg) calls = .ok (heap', c)) {size : Option K} {margin : K} {file : List (Line K)}
    (hs : c.save size margin = .ok file) : ∃ σ, Runs env file.flatten σ ∧ σ.stack = [] := by
  obtain ⟨σ, h1, h2⟩ := C130_operands_partial env h0 hbg hp hr hs
  refine ⟨σ, h1, List.length_eq_zero_iff.mp (h2.trans ?_)⟩
  rw [List.sum_eq_zero_iff]
  intro n hn'
  obtain ⟨call, hc, rfl⟩ := List.mem_map.mp hn'
  cases call with
  | rounded ps r f s => exact absurd hc (hn ps r f s)
  | _ => rfl

/-- **C130 fails** for rounded polygons: `n` of them with four corners each leave `16 * n` operands. -/
theorem C130_violated (env : Env ℚ) (n : Nat) {heap' : Nat → List ℚ} {c : Canvas ℚ}
    (hr : runCalls (fun _ => []) (Canvas.new none) (List.replicate n (.rounded [(0, 0), (4, 0), (4, 4), (0, 4)] 1 none (some (.num 0)))) = .ok (heap', c))
    {file : List (Line ℚ)} (hs : c.save none 0 = .ok file) : ∃ σ, Runs env file.flatten σ ∧ σ.stack.length = 16 * n := by
  obtain ⟨σ, h1, h2⟩ := C130_operands_partial env rfl (bg := none) (by rintro i ⟨⟩) (by simp [PlainCall]) hr hs
  refine ⟨σ, h1, h2.trans ?_⟩
  simp [spill, Nat.mul_comm]

example : ∃ heap' c file, runCalls (fun _ => []) (Canvas.new none)
    (List.replicate 3 (.rounded [(0, 0), (4, 0), (4, 4), (0, 4)] 1 none (some (.num 0)))) = .ok (heap', (c : Canvas ℚ)) ∧
    c.save none 0 = .ok file := goes_through (by decide +kernel)

end Vector
end Coral
