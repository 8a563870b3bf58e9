import Verif.Proofs.VectorFile
import Verif.Proofs.BBox
import Mathlib.Tactic.NormNum
import Mathlib.Tactic.Linarith
import Mathlib.Tactic.Positivity

/-! # Properties of `vector` -/
set_option linter.unusedSectionVars false
namespace Coral
namespace Vector
open PS

variable {K : Type} [Field K] [LinearOrder K] [IsStrictOrderedRing K]

/-- The whole file, run by the machine. -/
theorem file_runs (env : Env K) {heap heap' : Nat → List K} (h0 : heap 0 = []) {bg : Option (Ink K)} (hbg : PlainBg bg)
    {calls : List (Call K)} (hp : ∀ call ∈ calls, PlainCall call) {c : Canvas K}
    (hr : runCalls heap (Canvas.new bg) calls = .ok (heap', c)) {size : Option K} {margin : K} {file : List (Line K)}
    (hs : c.save size margin = .ok file) :
    ∃ σ Q, Runs env file.flatten σ ∧ (σ.dict = preDict c.deps ∧ σ.stack.length = (calls.map spill).sum) ∧ σ.gs.ctm = mapOf c.bbox size margin ∧
      σ.page = bgPaint c.bbox.x0 c.bbox.y0 c.bbox.x1 c.bbox.y1 margin bg size ++ Q ∧
      Q.map noInk = ((firstPen bg).draw env (mapOf c.bbox size margin) heap calls).2.map noInk ∧
      ∀ mode, BgOk mode bg → (∀ call ∈ calls, InksOk mode call) →
        Q = ((firstPen bg).draw env (mapOf c.bbox size margin) heap calls).2 := by
  obtain ⟨L, objs, hl, hb, hpar, hrun⟩ := run_sim (env := env) (mapOf c.bbox size margin) heap calls hr hp c.deps (fun _ h => h)
  have hbg' : c.bgcolor = bg := by rw [hb]; rfl
  obtain ⟨pre, o1, σ, hfile, hpre, hex, hdict, hgs, hpage, hstk, _⟩ := save_spec (env := env) hs (by rw [hbg']; exact hbg)
  have hst : (Canvas.new bg : Canvas K).state.width = 1 ∧ (Canvas.new bg : Canvas K).state.dash = (0, 0) := by
    cases bg with
    | none => exact ⟨rfl, rfl⟩
    | some i => cases i <;> exact ⟨rfl, rfl⟩
  obtain ⟨τ, Q, e, ⟨d, hs2⟩, hm, hQ, hn, hi⟩ := hrun (firstPen bg) σ (by rw [hdict]; exact std_preDict _) (by rw [hdict]; exact textDefs_preDict _)
    ⟨by rw [hgs], hst.1, by rw [hst.2]; exact h0, by rw [hst.2]; rfl, ⟨by rw [hgs]; rfl, by rw [hgs]; rfl, by rw [hgs]; rfl⟩⟩
  refine ⟨τ, Q, ⟨o1 ++ objs, ?_, hex.append e⟩, ⟨by rw [d, hdict], by rw [hs2, hstk]; simp⟩, hm.ctm, by rw [hQ, hpage, hbg'], hn, ?_⟩
  · rw [hfile, List.flatten_append, hl]
    exact (hpre.append hpar).parse
  · intro mode hbm him
    refine (hi mode him ?_ (by rw [hgs, hbg']; rfl)).1
    cases bg with
    | none => cases mode <;> simp [Cached, Canvas.new, psDefaults, firstPen, firstInk]
    | some i =>
      rcases hbg i rfl with ⟨v, rfl⟩ | ⟨r, g, b, rfl⟩
      · have := hbm _ rfl
        cases mode
        · exact this.elim
        · simp [Cached, Canvas.new, firstPen, firstInk, colour]
      · have := hbm _ rfl
        cases mode
        · simp [Cached, Canvas.new, firstPen, firstInk, colour]
        · exact this.elim

/-- An environment for the examples. -/
def noEnv : Env ℚ := ⟨fun _ _ => (0, 0, 0, 0), fun _ _ => (0, 0, 0, 0), fun _ _ _ => (0, 0)⟩

/-- A triangle. -/
def tri : List (ℚ × ℚ) := [(0, 0), (4, 0), (0, 3)]

/-! ### C73: inks -/

/-- **C73**, for histories whose inks are all of one kind (gray levels, or triples), as is the background if there is one, and in
which no shape is filled and stroked with the same ink: the saved file shows the background and then, call by call, what was asked
for, each fill, stroke and text in the ink of its call (or the ink in force). The parentheses of texts are balanced, texts hold no backslashes or carriage returns, and image
data are bytes; the caller does not change a dash list after passing it. -/
theorem C73_inks_partial (env : Env K) {heap heap' : Nat → List K} (h0 : heap 0 = []) (mode : Mode) {bg : Option (Ink K)} (hbg : BgOk mode bg)
    {calls : List (Call K)} (hp : ∀ call ∈ calls, PlainCall call) (hi : ∀ call ∈ calls, InksOk mode call) {c : Canvas K}
    (hr : runCalls heap (Canvas.new bg) calls = .ok (heap', c)) {size : Option K} {margin : K} {file : List (Line K)}
    (hs : c.save size margin = .ok file) :
    ∃ σ, Runs env file.flatten σ ∧ σ.page = bgPaint c.bbox.x0 c.bbox.y0 c.bbox.x1 c.bbox.y1 margin bg size ++
      ((firstPen bg).draw env (mapOf c.bbox size margin) heap calls).2 := by
  have hbg' : PlainBg bg := by
    intro i e
    have := hbg i e
    match mode, i, this with
    | .gray, .num v, _ => exact .inl ⟨v, rfl⟩
    | .rgb, .tuple l, h => exact .inr (by match l, h with | [r, g, b], _ => exact ⟨r, g, b, rfl⟩)
  obtain ⟨σ, Q, h1, _, _, h2, _, h3⟩ := file_runs env h0 hbg' hp hr hs
  exact ⟨σ, h1, by rw [h2, h3 mode hbg hi]⟩

/-- For the examples: the history and the saving go through. -/
def goesThrough (heap : Nat → List ℚ) (bg : Option (Ink ℚ)) (calls : List (Call ℚ)) (size : Option ℚ) (margin : ℚ) : Bool :=
  match runCalls heap (Canvas.new bg) calls with
  | .ok (_, c) => match c.save size margin with
    | .ok _ => true
    | .error _ => false
  | .error _ => false

theorem goes_through {heap : Nat → List ℚ} {bg : Option (Ink ℚ)} {calls : List (Call ℚ)} {size : Option ℚ} {margin : ℚ}
    (h : goesThrough heap bg calls size margin = true) :
    ∃ heap' c file, runCalls heap (Canvas.new bg) calls = .ok (heap', c) ∧ c.save size margin = .ok file := by
  rw [goesThrough] at h
  split at h
  · rename_i heap' c e
    split at h
    · rename_i file e'
      exact ⟨heap', c, file, e, e'⟩
    · cases h
  · cases h

/-- A drawing in shades of gray: filled and stroked triangles, a dashed line, a text, an image. -/
def grayCalls : List (Call ℚ) :=
  [.polygon tri (some (.num (1 / 2))) (some (.num 0)), .setwidth 2, .setdash 0 0, .polyline [(0, 0), (4, 3)] (some (.num (1 / 4))),
   .circle (1, 1) 1 (some (.num 1)) none, .text (2, 2) "Acre (AC)".toList 12 "Times-Bold" "c", .image [0, 127, 255, 1] 2 (some (1, 1)) 1 false,
   .rounded tri 1 none (some (.num (3 / 4)))]

def oneDash : Nat → List ℚ := fun i => if i = 1 then [3, 1] else []

example : ∃ heap' c file σ, runCalls oneDash (Canvas.new (some (.num 1))) grayCalls = .ok (heap', c) ∧
    c.save (some 100) 10 = .ok file ∧ Runs noEnv file.flatten σ ∧ σ.page.length = 8 := by
  obtain ⟨heap', c, file, h1, h2⟩ := goes_through (heap := oneDash) (bg := some (.num 1)) (calls := grayCalls) (size := some 100)
    (margin := 10) (by decide +kernel)
  obtain ⟨σ, h3, h4⟩ := C73_inks_partial noEnv (rfl : oneDash 0 = []) .gray (bg := some (.num 1)) (by rintro i ⟨⟩; trivial)
    (calls := grayCalls) (by
      simp only [grayCalls, List.forall_mem_cons]
      simp [PlainCall, PlainString, balanced_iff, nest]) (by
      simp only [grayCalls, List.forall_mem_cons]
      simp [InksOk, InMode]) h1 h2
  exact ⟨heap', c, file, σ, h1, h2, h3, by rw [h4]; rfl⟩

theorem runs_to {heap : Nat → List ℚ} {c c' : Canvas ℚ} {calls : List (Call ℚ)}
    (h : (match runCalls heap c calls with | .ok r => decide (r.2 = c') | .error _ => false) = true) :
    ∃ heap', runCalls heap c calls = .ok (heap', c') := by
  split at h
  · rename_i r e
    exact ⟨r.1, by rw [e, ← of_decide_eq_true h]⟩
  · cases h

/-- What the machine does with the lines of a canvas saved without a page size: the numbers come as they are. -/
theorem run_lines (env : Env K) {c : Canvas K} {file : List (Line K)} (hs : c.save none 0 = .ok file) (hbg : c.bgcolor = none)
    (h : ∀ t ∈ c.lines.flatten, (toObj? t).isSome) (P : St K → Prop)
    (hf : ∀ σ : St K, σ.gs = GState.init → σ.page = [] → ∃ τ, runOps env (c.lines.flatten.filterMap toObj?) σ = some τ ∧ P τ) {σ : St K}
    (hr : Runs env file.flatten σ) : P σ := by
  obtain ⟨pre, o1, σ0, hfile, hpre, hex, hdict, hgs, hpage, _, _⟩ := save_spec (env := env) hs (by rw [hbg]; simp)
  have hgs0 : σ0.gs = GState.init := by
    rw [hgs, hbg]; rfl
  have hp0 : σ0.page = [] := by rw [hpage, hbg]; rfl
  obtain ⟨τ, h1, h2⟩ := hf σ0 hgs0 hp0
  have e := (runOps_exec (by rw [hdict]; exact std_preDict _) h1).1
  have : σ = τ := by
    refine Runs.det hr ⟨o1 ++ _, ?_, hex.append e⟩
    rw [hfile, List.flatten_append]
    exact (hpre.append (parses_all h)).parse
  rw [this]
  exact h2

theorem shows (env : Env ℚ) {heap : Nat → List ℚ} {calls : List (Call ℚ)} (c' : Canvas ℚ)
    (h : (match runCalls heap (Canvas.new none) calls with | .ok r => decide (r.2 = c') | .error _ => false) = true)
    (hbg : c'.bgcolor = none) (ht : ∀ t ∈ c'.lines.flatten, (toObj? t).isSome) (P : St ℚ → Prop)
    (hf : ∀ σ : St ℚ, σ.gs = GState.init → σ.page = [] → ∃ τ, runOps env (c'.lines.flatten.filterMap toObj?) σ = some τ ∧ P τ) :
    ∃ heap' c file, runCalls heap (Canvas.new none) calls = .ok (heap', c) ∧ c.save none 0 = .ok file ∧
      ∀ σ, Runs env file.flatten σ → P σ := by
  obtain ⟨heap', hr⟩ := runs_to h
  obtain ⟨file, hs⟩ : ∃ file, c'.save none 0 = .ok file := by
    rw [Canvas.save, Canvas.background, hbg, Canvas.fit]
    exact ⟨_, rfl⟩
  exact ⟨heap', c', file, hr, hs, fun σ hσ => run_lines env hs hbg ht P hf hσ⟩

/-- **C73 fails** in general: after a fill in a colour, a fill in black is not black, because the gray level is believed to be black
still. (Whatever the environment; both inks are ordinary.) -/
theorem C73_violated_kinds (env : Env ℚ) :
    ∃ (heap' : Nat → List ℚ) (c : Canvas ℚ) (file : List (Line ℚ)),
      runCalls (fun _ => []) (Canvas.new none) [.polygon tri (some (.tuple [1, 0, 0])) none, .polygon tri (some (.num 0)) none] = .ok (heap', c) ∧
      c.save none 0 = .ok file ∧ ∀ σ, Runs env file.flatten σ →
        ∃ path path', σ.page = [.fill path (1, 0, 0), .fill path' (1, 0, 0)] := by
  refine shows env ⟨none, [[.word "np"], [.num 0, .num 0, .word "m"], [.num 4, .num 0, .word "l"], [.num 0, .num 3, .word "l"],
    [.word "cp"], [.num 1, .num 0, .num 0, .word "rgb"], [.word "f"], [.word "np"], [.num 0, .num 0, .word "m"],
    [.num 4, .num 0, .word "l"], [.num 0, .num 3, .word "l"], [.word "cp"], [.word "f"]],
    ⟨0, 0, 4, 3⟩, ⟨[1, 0, 0], some 0, 1, (0, 0)⟩, []⟩ (by decide +kernel) rfl (by simp [toObj?]) _ ?_
  intro σ hg hp
  refine ⟨_, by simp [toObj?, runOps, operator, hg, GState.init]; rfl, ?_⟩
  simp [hp]

/-- **C73 fails** also with gray levels alone: a triangle filled and stroked in the same gray is stroked in black. -/
theorem C73_violated_same (env : Env ℚ) :
    ∃ (heap' : Nat → List ℚ) (c : Canvas ℚ) (file : List (Line ℚ)),
      runCalls (fun _ => []) (Canvas.new none) [.polygon tri (some (.num (1 / 2))) (some (.num (1 / 2)))] = .ok (heap', c) ∧
      c.save none 0 = .ok file ∧ ∀ σ, Runs env file.flatten σ →
        ∃ path path', σ.page = [.fill path (1 / 2, 1 / 2, 1 / 2), .stroke path' (0, 0, 0) 1 ([], 0)] := by
  refine shows env ⟨none, [[.word "np"], [.num 0, .num 0, .word "m"], [.num 4, .num 0, .word "l"], [.num 0, .num 3, .word "l"],
    [.word "cp"], [.word "gs"], [.num (1 / 2), .word "v"], [.word "f"], [.word "gr"], [.word "s"]],
    ⟨0, 0, 4, 3⟩, ⟨[0, 0, 0], some (1 / 2), 1, (0, 0)⟩, []⟩ (by decide +kernel) rfl (by simp [toObj?]) _ ?_
  intro σ hg hp
  refine ⟨_, by simp [toObj?, runOps, operator, hg, GState.init]; rfl, ?_⟩
  simp [hp]

/-! ### C74: width and dash pattern -/

/-- **C74**, when the caller does not change a list it passed to `setdash`: every stroke of the saved file has the width and the dash
pattern of the latest `setwidth` and `setdash` (or the defaults), whatever the inks; the file shows the calls one by one, but for the
inks. -/
theorem C74_strokes_partial (env : Env K) {heap heap' : Nat → List K} (h0 : heap 0 = []) {bg : Option (Ink K)} (hbg : PlainBg bg)
    {calls : List (Call K)} (hp : ∀ call ∈ calls, PlainCall call) {c : Canvas K}
    (hr : runCalls heap (Canvas.new bg) calls = .ok (heap', c)) {size : Option K} {margin : K} {file : List (Line K)}
    (hs : c.save size margin = .ok file) :
    ∃ σ Q, Runs env file.flatten σ ∧ σ.page = bgPaint c.bbox.x0 c.bbox.y0 c.bbox.x1 c.bbox.y1 margin bg size ++ Q ∧
      Q.map noInk = ((firstPen bg).draw env (mapOf c.bbox size margin) heap calls).2.map noInk := by
  obtain ⟨σ, Q, h1, _, _, h2, h3, _⟩ := file_runs env h0 hbg hp hr hs
  exact ⟨σ, Q, h1, h2, h3⟩

/-- The pen has the width and the pattern of the latest calls. -/
theorem C74_pen (env : Env K) (m : CTM K) (heap : Nat → List K) (pen : Pen K) (calls : List (Call K)) (w : K) (i : Nat) (o : K)
    (rest : List (Call K)) (h : ∀ call ∈ rest, (∀ w, call ≠ .setwidth w) ∧ ∀ i o, call ≠ .setdash i o) :
    (pen.draw env m heap (calls ++ .setwidth w :: .setdash i o :: rest)).1.width = w ∧
    (pen.draw env m heap (calls ++ .setwidth w :: .setdash i o :: rest)).1.dash =
      ((calls.foldl heapAfter heap) (listRef i), o) := by
  have hrest : ∀ (rest : List (Call K)) (heap : Nat → List K) (pen : Pen K),
      (∀ call ∈ rest, (∀ w, call ≠ .setwidth w) ∧ ∀ i o, call ≠ .setdash i o) →
      (pen.draw env m heap rest).1.width = pen.width ∧ (pen.draw env m heap rest).1.dash = pen.dash := by
    intro rest
    induction rest with
    | nil => intro heap pen _; exact ⟨rfl, rfl⟩
    | cons call rest ih =>
      intro heap pen h
      obtain ⟨i1, i2⟩ := ih (heapAfter heap call) (pen.call env m heap call).1 (fun c hc => h c (List.mem_cons_of_mem _ hc))
      have hshape : ∀ (p : List (Seg K)) (f s : Option (Ink K)), (pen.shape p f s).1.width = pen.width ∧ (pen.shape p f s).1.dash = pen.dash := by
        intro p f s; unfold Pen.shape; split <;> exact ⟨rfl, rfl⟩
      have hc : (pen.call env m heap call).1.width = pen.width ∧ (pen.call env m heap call).1.dash = pen.dash := by
        obtain ⟨n1, n2⟩ := h call List.mem_cons_self
        cases call with
        | setwidth w => exact absurd rfl (n1 w)
        | setdash i o => exact absurd rfl (n2 i o)
        | circle => exact hshape _ _ _
        | rounded => exact hshape _ _ _
        | polygon ps f s => rw [Pen.call]; split <;> first | exact ⟨rfl, rfl⟩ | exact hshape _ _ _
        | polyline ps s => rw [Pen.call]; split <;> exact ⟨rfl, rfl⟩
        | _ => exact ⟨rfl, rfl⟩
      exact ⟨i1.trans hc.1, i2.trans hc.2⟩
  induction calls generalizing heap pen with
  | nil =>
    obtain ⟨h1, h2⟩ := hrest rest heap { pen with width := w, dash := (heap (listRef i), o) } h
    exact ⟨h1, h2⟩
  | cons call calls ih => exact ih _ _

/-- Mixed inks, where C73 does not apply. -/
example : ∃ heap' c file σ Q, runCalls oneDash (Canvas.new none) [.setwidth 2, .polygon tri (some (.tuple [1, 0, 0])) (some (.num 0)),
      .setdash 0 0, .polyline tri none] = .ok (heap', c) ∧ c.save none 0 = .ok file ∧ Runs noEnv file.flatten σ ∧ σ.page = Q ∧
    Q.map noInk = [.fill [.move (0, 0), .line (4, 0), .line (0, 3), .close] (0, 0, 0),
      .stroke [.move (0, 0), .line (4, 0), .line (0, 3), .close] (0, 0, 0) 2 ([], 0),
      .stroke [.move (0, 0), .line (4, 0), .line (0, 3)] (0, 0, 0) 2 ([3, 1], 0)] := by
  obtain ⟨heap', c, file, h1, h2⟩ := goes_through (heap := oneDash) (bg := none) (calls := [.setwidth 2,
    .polygon tri (some (.tuple [1, 0, 0])) (some (.num 0)), .setdash 0 0, .polyline tri none]) (size := none) (margin := 0) (by decide +kernel)
  obtain ⟨σ, Q, h3, h4, h5⟩ := C74_strokes_partial noEnv (rfl : oneDash 0 = []) (bg := none) (by rintro i ⟨⟩) (by simp [PlainCall]) h1 h2
  refine ⟨heap', c, file, σ, Q, h1, h2, h3, by rw [h4]; rfl, ?_⟩
  rw [h5]
  simp [Pen.draw, Pen.call, firstPen, Pen.shape, polyPath, tri, mapOf, pageMap, CTM.apply, noInk, heapAfter, listRef, oneDash]

/-- **C74 fails** when the caller reuses its list: `setdash(l, 0)`, `l[:] = [2]`, `setdash(l, 0)` and a line is dashed `[1]`. -/
theorem C74_violated (env : Env ℚ) :
    ∃ (heap' : Nat → List ℚ) (c : Canvas ℚ) (file : List (Line ℚ)),
      runCalls (fun i => if i = 1 then [1] else []) (Canvas.new none) [.setdash 0 0, .mutate 0 [2], .setdash 0 0, .polyline tri none] = .ok (heap', c) ∧
      c.save none 0 = .ok file ∧ ∀ σ, Runs env file.flatten σ → ∃ path, σ.page = [.stroke path (0, 0, 0) 1 ([1], 0)] := by
  refine shows env ⟨none, [[.word "[", .num 1, .word "]", .num 0, .word "setdash"], [.word "np"], [.num 0, .num 0, .word "m"],
    [.num 4, .num 0, .word "l"], [.num 0, .num 3, .word "l"], [.word "s"]],
    ⟨0, 0, 4, 3⟩, ⟨[0, 0, 0], some 0, 1, (1, 0)⟩, []⟩ (by decide +kernel) rfl (by simp [toObj?]) _ ?_
  intro σ hg hp
  refine ⟨_, by simp [toObj?, runOps, operator, toMark, hg, GState.init]; rfl, ?_⟩
  simp [hp]

/-! ### C75: the box -/

theorem lineLoop_box (c : Canvas K) (b : BBox K) (ps : List (K × K)) :
    (c.lineLoop b ps).2 = ps.foldl BBox.absorb b ∧ (c.lineLoop b ps).1.bbox = c.bbox := by
  induction ps generalizing c b with
  | nil => exact ⟨rfl, rfl⟩
  | cons p ps ih => exact ⟨(ih _ _).1, (ih _ _).2.trans rfl⟩

theorem arctoLoop_box (c : Canvas K) (r : K) (ps : List ((K × K) × (K × K))) : (c.arctoLoop r ps).bbox = c.bbox := by
  induction ps generalizing c with
  | nil => rfl
  | cons p ps ih => exact (ih _).trans rfl

theorem hexLoop_box (c : Canvas K) (d : List Nat) (w n a : Nat) : (c.hexLoop d w n a).bbox = c.bbox := by
  induction n generalizing c a with
  | zero => rfl
  | succ n ih => exact (ih _ _).trans rfl

theorem setink_box {c c' : Canvas K} {i : Ink K} (h : c.setink i = .ok c') : c'.bbox = c.bbox :=
  (setink_spec (env := ⟨fun _ _ => (0, 0, 0, 0), fun _ _ => (0, 0, 0, 0), fun _ _ _ => (0, 0)⟩) h).choose_spec.choose_spec.choose_spec.2.2.1

theorem paint_box {c c' : Canvas K} {f s : Option (Ink K)} (h : c.paint f s = .ok c') : c'.bbox = c.bbox := by
  obtain ⟨_, _, _, _, h, _⟩ := paint_spec (env := ⟨fun _ _ => (0, 0, 0, 0), fun _ _ => (0, 0, 0, 0), fun _ _ _ => (0, 0)⟩) h
  exact h

theorem call_box {heap : Nat → List K} {c c' : Canvas K} {call : Call K} (h : c.call heap call = .ok c') :
    (call = .resetbbox ∧ c'.bbox = BBox.empty) ∨ (extent call = [] ∧ c'.bbox = c.bbox) ∨
    ∃ b, c'.bbox = c.bbox.union b ∧ (match call with
      | .circle ce r _ _ => b = ⟨ce.1 - r, ce.2 - r, ce.1 + r, ce.2 + r⟩
      | .image _ _ _ _ _ => ∃ p q, extent call = [p, q] ∧ b = ⟨p.1, p.2, q.1, q.2⟩
      | _ => BBox.ofPoints (extent call) = .ok b) := by
  cases call with
  | resetbbox => cases h; exact .inl ⟨rfl, rfl⟩
  | text p t s f a =>
    simp only [Canvas.call, Canvas.addtext] at h
    split at h
    · cases h
    · cases h; exact .inr (.inl ⟨rfl, rfl⟩)
  | setgray v => exact .inr (.inl ⟨rfl, setink_box (i := .num v) h⟩)
  | setcolor r g b => exact .inr (.inl ⟨rfl, setink_box (i := .tuple [r, g, b]) h⟩)
  | setink i => exact .inr (.inl ⟨rfl, setink_box h⟩)
  | setwidth w =>
    refine .inr (.inl ⟨rfl, ?_⟩)
    simp only [Canvas.call, Except.ok.injEq, Canvas.setwidth] at h
    split at h <;> subst h <;> rfl
  | setdash i o =>
    refine .inr (.inl ⟨rfl, ?_⟩)
    simp only [Canvas.call, Except.ok.injEq, Canvas.setdash] at h
    split at h <;> subst h <;> rfl
  | circle ce r f s =>
    obtain ⟨c2, h2, h⟩ := Py.bind_ok.mp h
    cases h
    refine .inr (.inr ⟨_, ?_, rfl⟩)
    show c2.bbox.union _ = _
    rw [paint_box h2]
    rfl
  | polyline ps s =>
    cases ps with
    | nil => cases h; exact .inr (.inl ⟨rfl, rfl⟩)
    | cons p ps =>
      simp only [Canvas.call, Canvas.addpolyline] at h
      obtain ⟨l1, l2⟩ := lineLoop_box ((c.emit [.word "np"]).emit [.num p.1, .num p.2, .word "m"]) (BBox.ofCorners p p) ps
      refine .inr (.inr ⟨_, ?_, congrArg Except.ok l1.symm⟩)
      cases s with
      | none =>
        cases h
        show (Canvas.lineLoop _ _ _).1.bbox.union _ = _
        rw [l2]; rfl
      | some s =>
        obtain ⟨c2, h2, h⟩ := Py.bind_ok.mp h
        cases h
        show c2.bbox.union _ = _
        rw [setink_box h2, l2]; rfl
  | polygon ps f s =>
    cases ps with
    | nil => cases h; exact .inr (.inl ⟨rfl, rfl⟩)
    | cons p ps =>
      simp only [Canvas.call, Canvas.addpolygon] at h
      obtain ⟨l1, l2⟩ := lineLoop_box ((c.emit [.word "np"]).emit [.num p.1, .num p.2, .word "m"]) (BBox.ofCorners p p) ps
      refine .inr (.inr ⟨_, ?_, congrArg Except.ok l1.symm⟩)
      obtain ⟨c2, h2, h⟩ := Py.bind_ok.mp h
      cases h
      show c2.bbox.union _ = _
      rw [paint_box h2]
      show (Canvas.lineLoop _ _ _).1.bbox.union _ = _
      rw [l2]; rfl
  | rounded ps r f s =>
    match ps, h with
    | [], h => cases h
    | [_], h => cases h
    | p1 :: p2 :: rest, h =>
      obtain ⟨c2, h2, h⟩ := Py.bind_ok.mp h
      refine .inr (.inr ⟨_, ?_, rfl⟩)
      cases h
      show c2.bbox.union _ = _
      rw [paint_box h2]
      show (Canvas.arctoLoop _ _ _).bbox.union _ = _
      rw [arctoLoop_box]; rfl
  | image d w po sc co =>
    simp only [Canvas.call, Canvas.addimage] at h
    generalize hcw' : (if co = true then 3 * w else w) = cw at h
    by_cases hcw : cw = 0
    · rw [if_pos hcw] at h; cases h
    · rw [if_neg hcw] at h
      cases h
      have h1 : ∀ c0 : Canvas K, (c0.translated po).bbox = c0.bbox := by intro c0; cases po <;> rfl
      refine .inr (.inr ⟨_, ?_, (po.getD (0, 0)), ((po.getD (0, 0)).1 + w * sc, (po.getD (0, 0)).2 + (d.length / cw : Nat) * sc),
        by simp only [extent, hcw'], rfl⟩)
      cases co <;> simp [hexLoop_box, h1, BBox.ofCorners, add_comm]
  | mutate i l => cases h; exact .inr (.inl ⟨rfl, rfl⟩)

theorem union_covers_right {a b : BBox K} (hb : b.Proper) {p : K × K} (hp : b.Covers p) : (a.union b).Proper ∧ (a.union b).Covers p := by
  by_cases ha : a.truthy = true
  · have : a.union b = ⟨min a.x0 b.x0, min a.y0 b.y0, max a.x1 b.x1, max a.y1 b.y1⟩ := by
      simp [BBox.union, ha, hb.truthy, BBox.ofCorners]
    rw [this]
    exact ⟨⟨(min_le_right _ _).trans_lt (hb.1.trans_le (le_max_right _ _)), (min_le_right _ _).trans_lt (hb.2.trans_le (le_max_right _ _))⟩,
      (min_le_right _ _).trans hp.1, hp.2.1.trans (le_max_right _ _), (min_le_right _ _).trans hp.2.2.1, hp.2.2.2.trans (le_max_right _ _)⟩
  · rw [BBox.union_false_left (by simpa using ha)]
    exact ⟨hb, hp⟩

theorem union_covers_left {a b : BBox K} (ha : a.Proper) {p : K × K} (hp : a.Covers p) : (a.union b).Proper ∧ (a.union b).Covers p := by
  by_cases hb : b.truthy = true
  · have : a.union b = ⟨min a.x0 b.x0, min a.y0 b.y0, max a.x1 b.x1, max a.y1 b.y1⟩ := by
      simp [BBox.union, hb, ha.truthy, BBox.ofCorners]
    rw [this]
    exact ⟨⟨(min_le_left _ _).trans_lt (ha.1.trans_le (le_max_left _ _)), (min_le_left _ _).trans_lt (ha.2.trans_le (le_max_left _ _))⟩,
      (min_le_left _ _).trans hp.1, hp.2.1.trans (le_max_left _ _), (min_le_left _ _).trans hp.2.2.1, hp.2.2.2.trans (le_max_left _ _)⟩
  · rw [BBox.union_false_right ha.truthy (by simpa using hb)]
    exact ⟨ha, hp⟩

theorem runCalls_append {heap : Nat → List K} {c : Canvas K} {a b : List (Call K)} {r : (Nat → List K) × Canvas K}
    (h : runCalls heap c (a ++ b) = .ok r) : ∃ heap1 c1, runCalls heap c a = .ok (heap1, c1) ∧ runCalls heap1 c1 b = .ok r := by
  induction a generalizing heap c with
  | nil => exact ⟨heap, c, rfl, h⟩
  | cons x a ih =>
    rw [List.cons_append, runCalls] at h
    obtain ⟨c1, h1, h⟩ := Py.bind_ok.mp h
    obtain ⟨h2, c2, e, h⟩ := ih h
    exact ⟨h2, c2, by rw [runCalls]; exact Py.bind_ok.mpr ⟨c1, h1, e⟩, h⟩

/-- **C75**, for shapes that extend in both directions (circles with a positive radius, images with a positive scale): the box of the
canvas covers every vertex, circle and image drawn since the last reset, whatever else was drawn before, between and after. Shapes
without extent are missing: see `C75_violated`. -/
theorem C75_box_partial {heap heap' : Nat → List K} {c0 c : Canvas K} {pre post : List (Call K)} {call : Call K}
    (hr : runCalls heap c0 (pre ++ call :: post) = .ok (heap', c)) (hpost : Call.resetbbox ∉ post)
    (hx : ∃ p ∈ extent call, ∃ q ∈ extent call, p.1 < q.1) (hy : ∃ p ∈ extent call, ∃ q ∈ extent call, p.2 < q.2)
    (hc : ∀ ce r f s, call = .circle ce r f s → 0 < r) (hi : ∀ d w po sc co, call = .image d w po sc co → 0 < sc) :
    ∀ p ∈ extent call, c.bbox.Covers p := by
  obtain ⟨heap1, c1, h1, h2⟩ := runCalls_append hr
  rw [runCalls] at h2
  obtain ⟨c2, h3, h4⟩ := Py.bind_ok.mp h2
  have key : ∀ p ∈ extent call, c2.bbox.Proper ∧ c2.bbox.Covers p := by
    intro p hp
    rcases call_box h3 with ⟨rfl, _⟩ | ⟨he, _⟩ | ⟨b, hb, hb'⟩
    · simp [extent] at hp
    · rw [he] at hp; simp at hp
    · rw [hb]
      have hpts : BBox.ofPoints (extent call) = .ok b → b.Proper ∧ b.Covers p := by
        intro h
        cases hl : extent call with
        | nil => rw [hl] at hp; simp at hp
        | cons x xs =>
          obtain ⟨b', e1, wf, cov, tight⟩ := BBox.ofPoints_spec x xs
          rw [← hl] at e1 cov
          rw [h] at e1
          injection e1 with e1
          subst e1
          refine ⟨⟨?_, ?_⟩, cov p hp⟩
          · obtain ⟨u, hu, v, hv, huv⟩ := hx
            exact (cov u hu).1.trans_lt (huv.trans_le (cov v hv).2.1)
          · obtain ⟨u, hu, v, hv, huv⟩ := hy
            exact (cov u hu).2.2.1.trans_lt (huv.trans_le (cov v hv).2.2.2)
      have hpair : ∀ u v : K × K, extent call = [u, v] → u.1 ≤ v.1 → u.2 ≤ v.2 → b = ⟨u.1, u.2, v.1, v.2⟩ → b.Proper ∧ b.Covers p := by
        rintro u v he h1 h2 rfl
        rw [he] at hx hy hp
        refine ⟨⟨?_, ?_⟩, ?_⟩
        · simp only [List.mem_cons, List.not_mem_nil, or_false] at hx
          obtain ⟨s, hs, t, ht, hst⟩ := hx
          rcases hs with rfl | rfl <;> rcases ht with rfl | rfl <;> (try exact absurd hst (lt_irrefl _)) <;> (try exact hst)
          exact absurd hst (not_lt.mpr h1)
        · simp only [List.mem_cons, List.not_mem_nil, or_false] at hy
          obtain ⟨s, hs, t, ht, hst⟩ := hy
          rcases hs with rfl | rfl <;> rcases ht with rfl | rfl <;> (try exact absurd hst (lt_irrefl _)) <;> (try exact hst)
          exact absurd hst (not_lt.mpr h2)
        · simp only [List.mem_cons, List.not_mem_nil, or_false] at hp
          rcases hp with rfl | rfl
          · exact ⟨le_refl _, h1, le_refl _, h2⟩
          · exact ⟨h1, le_refl _, h2, le_refl _⟩
      have : b.Proper ∧ b.Covers p := by
        cases call with
        | circle ce r f s =>
          have hr0 := hc _ _ _ _ rfl
          exact hpair _ _ rfl (by show ce.1 - r ≤ ce.1 + r; linarith) (by show ce.2 - r ≤ ce.2 + r; linarith) hb'
        | image d w po sc co =>
          have hs0 := hi _ _ _ _ _ rfl
          obtain ⟨u, v, e1, e2⟩ := hb'
          have e3 := e1
          simp only [extent, List.cons.injEq, and_true] at e3
          refine hpair u v e1 ?_ ?_ e2
          · rw [← e3.1, ← e3.2]
            show _ ≤ _ + (w : K) * sc
            have : (0 : K) ≤ (w : K) * sc := mul_nonneg (Nat.cast_nonneg _) hs0.le
            linarith
          · rw [← e3.1, ← e3.2]
            show _ ≤ _ + ((d.length / (if co = true then 3 * w else w) : Nat) : K) * sc
            have : (0 : K) ≤ ((d.length / (if co = true then 3 * w else w) : Nat) : K) * sc := mul_nonneg (Nat.cast_nonneg _) hs0.le
            linarith
        | polyline => exact hpts hb'
        | polygon => exact hpts hb'
        | rounded => exact hpts hb'
        | _ => simp [extent] at hp
      exact union_covers_right this.1 this.2
  intro p hp
  have : c.bbox.Proper ∧ c.bbox.Covers p := by
    have hk := key p hp
    clear key h1 h2 h3 hr
    generalize heapAfter heap1 call = hp2 at h4
    induction post generalizing c2 hp2 with
    | nil => cases h4; exact hk
    | cons x post ih =>
      rw [runCalls] at h4
      obtain ⟨c3, h5, h6⟩ := Py.bind_ok.mp h4
      refine ih (fun h => hpost (List.mem_cons_of_mem _ h)) _ ?_ _ h6
      rcases call_box h5 with ⟨rfl, _⟩ | ⟨_, hb⟩ | ⟨b, hb, _⟩
      · exact absurd List.mem_cons_self hpost
      · rw [hb]; exact hk
      · rw [hb]; exact union_covers_left hk.1 hk.2
  exact this.2

example : ∃ heap' c, runCalls oneDash (Canvas.new none) grayCalls = .ok (heap', c) ∧ c.bbox.Covers (4, 3) := by
  obtain ⟨heap', c, _, h1, _⟩ := goes_through (heap := oneDash) (bg := none) (calls := grayCalls) (size := none) (margin := 0) (by decide +kernel)
  refine ⟨heap', c, h1, C75_box_partial (pre := grayCalls.take 3) (post := grayCalls.drop 4) (call := .polyline [(0, 0), (4, 3)] (some (.num (1 / 4))))
    h1 (by simp [grayCalls]) ⟨(0, 0), by simp [extent], (4, 3), by simp [extent], by norm_num⟩
    ⟨(0, 0), by simp [extent], (4, 3), by simp [extent], by norm_num⟩ (by simp) (by simp) (4, 3) (by simp [extent])⟩

/-- **C75 fails** for shapes without extent: a horizontal line drawn after a triangle is not in the box. -/
theorem C75_violated : ∃ heap' c, runCalls (fun _ => []) (Canvas.new none)
      [.polygon tri none (some (.num 0)), .polyline [((10 : ℚ), 10), (20, 10)] none] = .ok (heap', c) ∧ ¬ c.bbox.Covers (20, 10) := by
  obtain ⟨heap', hr⟩ := runs_to (heap := fun _ => []) (c := Canvas.new none) (calls := [.polygon tri none (some (.num 0)),
      .polyline [((10 : ℚ), 10), (20, 10)] none])
    (c' := ⟨none, [[.word "np"], [.num 0, .num 0, .word "m"], [.num 4, .num 0, .word "l"], [.num 0, .num 3, .word "l"], [.word "cp"],
      [.word "s"], [.word "np"], [.num 10, .num 10, .word "m"], [.num 20, .num 10, .word "l"], [.word "s"]],
      ⟨0, 0, 4, 3⟩, ⟨[0, 0, 0], some 0, 1, (0, 0)⟩, []⟩) (by decide +kernel)
  refine ⟨heap', _, hr, ?_⟩
  simp only [BBox.Covers]
  norm_num

/-! ### C76: the path -/

theorem draw_append (env : Env K) (m : CTM K) (heap : Nat → List K) (pen : Pen K) (a b : List (Call K)) :
    pen.draw env m heap (a ++ b) = (((pen.draw env m heap a).1.draw env m (a.foldl heapAfter heap) b).1,
      (pen.draw env m heap a).2 ++ ((pen.draw env m heap a).1.draw env m (a.foldl heapAfter heap) b).2) := by
  induction a generalizing heap pen with
  | nil => rfl
  | cons x a ih =>
    simp only [List.cons_append, Pen.draw, ih, List.foldl_cons, List.append_assoc]

theorem pathOf_noInk {a b : List (Paint K)} (h : a.map noInk = b.map noInk) : a.map pathOf = b.map pathOf := by
  have : ∀ l : List (Paint K), l.map pathOf = (l.map noInk).map pathOf := by
    intro l
    rw [List.map_map]
    apply List.map_congr_left
    intro x _
    cases x <;> rfl
  rw [this a, this b, h]

/-- **C76.** Whatever was drawn before: the shapes a polygon puts on the page (its fill, its stroke, or both) have as their path exactly
the given points in order, closed; no point list, nothing emitted. -/
theorem C76_polygon (env : Env K) {heap heap' : Nat → List K} (h0 : heap 0 = []) {bg : Option (Ink K)} (hbg : PlainBg bg)
    {calls : List (Call K)} (hp : ∀ call ∈ calls, PlainCall call) (points : List (K × K)) (fill stroke : Option (Ink K)) {c : Canvas K}
    (hr : runCalls heap (Canvas.new bg) (calls ++ [.polygon points fill stroke]) = .ok (heap', c)) {size : Option K} {margin : K}
    {file : List (Line K)} (hs : c.save size margin = .ok file) (hne : points ≠ []) :
    ∃ σ before shapes, Runs env file.flatten σ ∧ σ.page = before ++ shapes ∧
      shapes.map pathOf = List.replicate ((if fill.isSome then 1 else 0) + (if stroke.isSome then 1 else 0))
        (polyPath (mapOf c.bbox size margin) points ++ [.close]) := by
  obtain ⟨σ, Q, h1, h2, h3⟩ := C74_strokes_partial env h0 hbg (calls := calls ++ [.polygon points fill stroke])
    (by
      intro call hc
      rcases List.mem_append.mp hc with h | h
      · exact hp call h
      · simp only [List.mem_singleton] at h; subst h; trivial) hr hs
  rw [draw_append, List.map_append] at h3
  obtain ⟨Q1, Q2, rfl, e1, e2⟩ := List.map_eq_append_iff.mp h3
  refine ⟨σ, _ ++ Q1, Q2, h1, by rw [h2, List.append_assoc], ?_⟩
  rw [pathOf_noInk e2]
  simp only [Pen.draw, Pen.call, if_neg hne, List.append_nil]
  cases fill <;> cases stroke <;> rfl

/-- The same for a polyline, which is not closed. -/
theorem C76_polyline (env : Env K) {heap heap' : Nat → List K} (h0 : heap 0 = []) {bg : Option (Ink K)} (hbg : PlainBg bg)
    {calls : List (Call K)} (hp : ∀ call ∈ calls, PlainCall call) (points : List (K × K)) (stroke : Option (Ink K)) {c : Canvas K}
    (hr : runCalls heap (Canvas.new bg) (calls ++ [.polyline points stroke]) = .ok (heap', c)) {size : Option K} {margin : K}
    {file : List (Line K)} (hs : c.save size margin = .ok file) (hne : points ≠ []) :
    ∃ σ before shape, Runs env file.flatten σ ∧ σ.page = before ++ [shape] ∧
      pathOf shape = polyPath (mapOf c.bbox size margin) points := by
  obtain ⟨σ, Q, h1, h2, h3⟩ := C74_strokes_partial env h0 hbg (calls := calls ++ [.polyline points stroke])
    (by
      intro call hc
      rcases List.mem_append.mp hc with h | h
      · exact hp call h
      · simp only [List.mem_singleton] at h; subst h; trivial) hr hs
  rw [draw_append, List.map_append] at h3
  obtain ⟨Q1, Q2, rfl, e1, e2⟩ := List.map_eq_append_iff.mp h3
  simp only [Pen.draw, Pen.call, if_neg hne, List.append_nil, List.map_cons, List.map_nil] at e2
  obtain ⟨x, l, rfl, ex, el⟩ := List.map_eq_cons_iff.mp e2
  rw [List.map_eq_nil_iff] at el
  subst el
  refine ⟨σ, _ ++ Q1, x, h1, by rw [h2, List.append_assoc], ?_⟩
  cases x with
  | fill => cases ex
  | stroke => injection ex with ex
  | text => cases ex
  | image => cases ex

theorem C76_empty (heap : Nat → List K) (c : Canvas K) (fill stroke : Option (Ink K)) :
    c.call heap (.polygon [] fill stroke) = .ok c ∧ c.call heap (.polyline [] stroke) = .ok c := ⟨rfl, rfl⟩

example : ∃ heap' c file σ before shapes, runCalls oneDash (Canvas.new none) (grayCalls ++ [.polygon tri (some (.num 0)) (some (.num 1))]) = .ok (heap', c) ∧
    c.save none 0 = .ok file ∧ Runs noEnv file.flatten σ ∧ σ.page = before ++ shapes ∧
    shapes.map pathOf = [[.move (0, 0), .line (4, 0), .line (0, 3), .close], [.move (0, 0), .line (4, 0), .line (0, 3), .close]] := by
  obtain ⟨heap', c, file, h1, h2⟩ := goes_through (heap := oneDash) (bg := none) (calls := grayCalls ++ [.polygon tri (some (.num 0)) (some (.num 1))])
    (size := none) (margin := 0) (by decide +kernel)
  obtain ⟨σ, before, shapes, h3, h4, h5⟩ := C76_polygon noEnv (rfl : oneDash 0 = []) (bg := none) (by rintro i ⟨⟩) (calls := grayCalls)
    (by simp [grayCalls, PlainCall, PlainString, balanced_iff, nest]) tri (some (.num 0)) (some (.num 1)) h1 h2 (by simp [tri])
  refine ⟨heap', c, file, σ, before, shapes, h1, h2, h3, h4, ?_⟩
  rw [h5]
  simp [polyPath, tri, mapOf, pageMap, CTM.apply, List.replicate]

/-! ### C77: the page -/

theorem box_wf {heap heap' : Nat → List K} {c0 c : Canvas K} {calls : List (Call K)} (h0 : c0.bbox.WF)
    (hr : runCalls heap c0 calls = .ok (heap', c)) (hw : ∀ call ∈ calls, WellSized call) : c.bbox.WF := by
  induction calls generalizing heap c0 with
  | nil => cases hr; exact h0
  | cons call calls ih =>
    rw [runCalls] at hr
    obtain ⟨c1, h1, h2⟩ := Py.bind_ok.mp hr
    refine ih ?_ h2 (fun x hx => hw x (List.mem_cons_of_mem _ hx))
    rcases call_box h1 with ⟨rfl, hb⟩ | ⟨_, hb⟩ | ⟨b, hb, hb'⟩
    · rw [hb]; exact ⟨le_refl _, le_refl _⟩
    · rw [hb]; exact h0
    · rw [hb]
      refine BBox.union_wf h0 ?_
      have hpts : BBox.ofPoints (extent call) = .ok b → b.WF := by
        intro h
        cases hl : extent call with
        | nil => rw [hl] at h; cases h
        | cons x xs =>
          obtain ⟨b', e1, wf, _, _⟩ := BBox.ofPoints_spec x xs
          rw [hl, e1] at h
          injection h with h
          rw [← h]; exact wf
      have hwc := hw call List.mem_cons_self
      cases call with
      | circle ce r f s =>
        have hr0 : 0 ≤ r := hwc
        rw [hb']
        exact ⟨by show ce.1 - r ≤ ce.1 + r; linarith, by show ce.2 - r ≤ ce.2 + r; linarith⟩
      | image d w po sc co =>
        have hs0 : 0 ≤ sc := hwc
        obtain ⟨u, v, e1, rfl⟩ := hb'
        simp only [extent, List.cons.injEq, and_true] at e1
        rw [← e1.1, ← e1.2]
        have h1 : (0 : K) ≤ (w : K) * sc := mul_nonneg (Nat.cast_nonneg _) hs0
        have h2 : (0 : K) ≤ ((d.length / (if co = true then 3 * w else w) : Nat) : K) * sc := mul_nonneg (Nat.cast_nonneg _) hs0
        exact ⟨by show _ ≤ _ + (w : K) * sc; linarith,
          by show _ ≤ _ + ((d.length / (if co = true then 3 * w else w) : Nat) : K) * sc; linarith⟩
      | _ => exact hpts hb'

/-- **C77.** In a file saved with a page size, the centre of the box comes to the middle of the page and every point of the box into
the square that leaves half the margin on every side. -/
theorem C77_fit (env : Env K) {heap heap' : Nat → List K} (h0 : heap 0 = []) {bg : Option (Ink K)} (hbg : PlainBg bg)
    {calls : List (Call K)} (hp : ∀ call ∈ calls, PlainCall call) {c : Canvas K}
    (hr : runCalls heap (Canvas.new bg) calls = .ok (heap', c)) {s margin : K} {file : List (Line K)}
    (hs : c.save (some s) margin = .ok file) (hm : margin ≤ s) (hw : ∀ call ∈ calls, WellSized call) :
    ∃ σ, Runs env file.flatten σ ∧
      σ.gs.ctm.apply ((c.bbox.x0 + c.bbox.x1) / 2) ((c.bbox.y0 + c.bbox.y1) / 2) = (s / 2, s / 2) ∧
      ∀ x y, c.bbox.Covers (x, y) →
        margin / 2 ≤ (σ.gs.ctm.apply x y).1 ∧ (σ.gs.ctm.apply x y).1 ≤ s - margin / 2 ∧
        margin / 2 ≤ (σ.gs.ctm.apply x y).2 ∧ (σ.gs.ctm.apply x y).2 ≤ s - margin / 2 := by
  obtain ⟨σ, Q, h1, _, h2, _⟩ := file_runs env h0 hbg hp hr hs
  refine ⟨σ, h1, ?_, ?_⟩
  · rw [h2]
    simp [mapOf, pageMap, CTM.apply]
  · intro x y ⟨hx0, hx1, hy0, hy1⟩
    rw [h2]
    obtain ⟨w1, w2⟩ : c.bbox.WF := by
      refine box_wf ?_ hr hw
      cases bg with
      | none => exact ⟨le_refl _, le_refl _⟩
      | some i => cases i <;> exact ⟨le_refl _, le_refl _⟩
    simp only at hx0 hx1 hy0 hy1
    have hne : max (c.bbox.x1 - c.bbox.x0) (c.bbox.y1 - c.bbox.y0) ≠ 0 := by
      intro h
      rw [Canvas.save, Canvas.fit] at hs
      obtain ⟨bg, _, hs⟩ := Py.bind_ok.mp hs
      rw [if_pos (by exact h)] at hs
      cases hs
    generalize hM : max (c.bbox.x1 - c.bbox.x0) (c.bbox.y1 - c.bbox.y0) = M at hne
    have hM1 : c.bbox.x1 - c.bbox.x0 ≤ M := hM ▸ le_max_left _ _
    have hM2 : c.bbox.y1 - c.bbox.y0 ≤ M := hM ▸ le_max_right _ _
    have hMpos : 0 < M := lt_of_le_of_ne (by linarith) (Ne.symm hne)
    have hk : 0 ≤ (s - margin) / M := div_nonneg (by linarith) hMpos.le
    have hkM : (s - margin) / M * M = s - margin := div_mul_cancel₀ _ hne
    simp only [mapOf, pageMap, CTM.apply, hM]
    generalize (s - margin) / M = k at hk hkM
    have key : ∀ z a b : K, a ≤ z → z ≤ b → b - a ≤ M → -(s - margin) ≤ 2 * (k * z - k * ((a + b) / 2)) ∧
        2 * (k * z - k * ((a + b) / 2)) ≤ s - margin := by
      intro z a b h1 h2 h3
      have e : 2 * (k * z - k * ((a + b) / 2)) = k * (2 * z - a - b) := by ring
      rw [e, ← hkM]
      constructor
      · have := mul_le_mul_of_nonneg_left (show -M ≤ 2 * z - a - b by linarith) hk
        linarith
      · exact mul_le_mul_of_nonneg_left (by linarith) hk
    have k1 := key x _ _ hx0 hx1 hM1
    have k2 := key y _ _ hy0 hy1 hM2
    refine ⟨?_, ?_, ?_, ?_⟩ <;> linarith [k1.1, k1.2, k2.1, k2.2]

example : ∃ heap' c file σ, runCalls oneDash (Canvas.new (some (.num 1))) grayCalls = .ok (heap', c) ∧ c.save (some 100) 10 = .ok file ∧
    Runs noEnv file.flatten σ ∧ 5 ≤ (σ.gs.ctm.apply 4 3).1 ∧ (σ.gs.ctm.apply 4 3).1 ≤ 100 - 5 := by
  obtain ⟨heap', c, file, h1, h2⟩ := goes_through (heap := oneDash) (bg := some (.num 1)) (calls := grayCalls) (size := some 100)
    (margin := 10) (by decide +kernel)
  obtain ⟨σ, h3, _, h5⟩ := C77_fit noEnv (rfl : oneDash 0 = []) (bg := some (.num 1)) (by rintro i ⟨⟩; exact .inl ⟨_, rfl⟩) (calls := grayCalls)
    (by simp [grayCalls, PlainCall, PlainString, balanced_iff, nest]) h1 h2 (by norm_num) (by simp [grayCalls, WellSized])
  have := h5 4 3 (C75_box_partial (pre := grayCalls.take 3) (post := grayCalls.drop 4) (call := .polyline [(0, 0), (4, 3)] (some (.num (1 / 4))))
    h1 (by simp [grayCalls]) ⟨(0, 0), by simp [extent], (4, 3), by simp [extent], by norm_num⟩
    ⟨(0, 0), by simp [extent], (4, 3), by simp [extent], by norm_num⟩ (by simp) (by simp) (4, 3) (by simp [extent]))
  refine ⟨heap', c, file, σ, h1, h2, h3, ?_, ?_⟩ <;> linarith [this.1, this.2.1]

/-! ### C78: definitions before use -/

theorem definedIn_append (a b : List (Tok K)) (h : ∀ n, a.getLast? ≠ some (.lit n)) : definedIn (a ++ b) = definedIn a ++ definedIn b := by
  induction a using definedIn.induct with
  | case1 n ts ih =>
    simp only [List.cons_append, definedIn]
    rw [ih ?_]
    intro m hm
    cases ts with
    | nil => cases hm
    | cons t ts => exact h m (by simpa [List.getLast?_cons_cons] using hm)
  | case2 t ts hn ih =>
    have h' : ∀ m, ts.getLast? ≠ some (.lit m) := by
      intro m hm
      cases ts with
      | nil => cases hm
      | cons u us => exact h m (by simpa [List.getLast?_cons_cons] using hm)
    rw [List.cons_append]
    have e1 : definedIn (t :: ts) = definedIn ts := by
      rw [definedIn]
      intro n us e1 e2
      exact hn n us e1 e2
    have e2 : definedIn (t :: (ts ++ b)) = definedIn (ts ++ b) := by
      cases ts with
      | nil =>
        have ht : ∀ n, t ≠ .lit n := fun n e => h n (by rw [e]; rfl)
        rw [definedIn]
        intro n ts e
        exact absurd e (ht n)
      | cons u us =>
        rw [definedIn]
        intro n ts e1 e2
        rw [List.cons_append] at e2
        injection e2 with e2 e3
        exact hn n us e1 (by rw [e2])
    rw [e1, e2, ih h']
  | case3 => rfl

theorem definedIn_none {a : List (Tok K)} (h : ∀ t ∈ a, t ≠ .lbrace) : definedIn a = [] := by
  induction a with
  | nil => rfl
  | cons t a ih =>
    rw [definedIn]
    · exact ih fun t ht => h t (List.mem_cons_of_mem _ ht)
    · rintro n ts rfl rfl
      exact h .lbrace (by simp) rfl

/-- The names `COMMONDEF` defines. -/
def commonNames : List String := ["bd", "m", "rm", "l", "rl", "w", "v", "rgb", "gs", "gr", "s", "f", "np", "cp"]

theorem run_deps {heap heap' : Nat → List K} {c0 c : Canvas K} {calls : List (Call K)} (hr : runCalls heap c0 calls = .ok (heap', c)) (k : String) :
    k ∈ c.deps ↔ k ∈ c0.deps ∨ NeedsProc calls k := by
  induction calls generalizing heap c0 with
  | nil =>
    cases hr
    simp [NeedsProc]
  | cons call calls ih =>
    rw [runCalls] at hr
    obtain ⟨c1, h1, h2⟩ := Py.bind_ok.mp hr
    rw [ih h2]
    obtain ⟨ds, hds, htext, hno⟩ := call_deps h1
    rw [hds, List.mem_append]
    by_cases ht : ∃ p t s f a, call = .text p t s f a
    · obtain ⟨p, t, s, f, a, rfl⟩ := ht
      rw [htext p t s f a rfl]
      constructor
      · rintro ((h | h) | ⟨p', t', s', f', a', h, hk⟩)
        · exact .inl h
        · exact .inr ⟨p, t, s, f, a, List.mem_cons_self, by simpa using h⟩
        · exact .inr ⟨p', t', s', f', a', List.mem_cons_of_mem _ h, hk⟩
      · rintro (h | ⟨p', t', s', f', a', h, hk⟩)
        · exact .inl (.inl h)
        · rcases List.mem_cons.mp h with e | h
          · injection e with e1 e2 e3 e4 e5
            subst e5
            exact .inl (.inr (by simpa using hk))
          · exact .inr ⟨p', t', s', f', a', h, hk⟩
    · have : ∀ p t s f a, call ≠ .text p t s f a := fun p t s f a e => ht ⟨p, t, s, f, a, e⟩
      rw [hno this]
      simp only [List.not_mem_nil, or_false]
      constructor
      · rintro (h | ⟨p', t', s', f', a', h, hk⟩)
        · exact .inl h
        · exact .inr ⟨p', t', s', f', a', List.mem_cons_of_mem _ h, hk⟩
      · rintro (h | ⟨p', t', s', f', a', h, hk⟩)
        · exact .inl h
        · rcases List.mem_cons.mp h with e | h
          · exact absurd e.symm (this _ _ _ _ _)
          · exact .inr ⟨p', t', s', f', a', h, hk⟩

theorem definedIn_defs (D : List String) :
    definedIn ((defs.filter (fun d => decide (String.ofList d.1 ∈ D))).map (fun d => (PS.tokens d.2).map Tok.cast) : List (Line K)).flatten =
      textKeys.filter (fun k => decide (k ∈ D)) ∧
    ∀ n, ((defs.filter (fun d => decide (String.ofList d.1 ∈ D))).map (fun d => (PS.tokens d.2).map Tok.cast) : List (Line K)).flatten.getLast? ≠
      some (.lit n) := by
  have h1 : (defs.filter (fun d => decide (String.ofList d.1 ∈ D))).map (fun d => ((PS.tokens d.2).map Tok.cast : Line K)) =
      ((defs.map (fun d => (String.ofList d.1, tokens d.2))).filter (fun d => decide (d.1 ∈ D))).map (fun d => d.2.map Tok.cast) := by
    generalize defs = l
    induction l with
    | nil => rfl
    | cons d l ih =>
      simp only [List.map_cons, List.filter_cons]
      split
      · simp [ih]
      · exact ih
  rw [h1, defs_tokens]
  have h2 : textKeys = defTokens.map Prod.fst := by rw [defTokens_keys (K := K), textProcs_keys]
  have h3 : ∀ d ∈ defTokens, definedIn (d.2.map Tok.cast : Line K) = [d.1] ∧ (d.2.map Tok.cast : Line K).getLast? = some (.word "bd") := by
    simp [defTokens, definedIn, Tok.cast]
  rw [h2]
  generalize defTokens = l at h3
  induction l with
  | nil => exact ⟨rfl, by simp⟩
  | cons d l ih =>
    obtain ⟨i1, i2⟩ := ih fun d hd => h3 d (List.mem_cons_of_mem _ hd)
    obtain ⟨h4, h5⟩ := h3 d List.mem_cons_self
    rw [List.map_cons, List.filter_cons, List.filter_cons]
    split
    · simp only [List.map_cons, List.flatten_cons]
      constructor
      · rw [definedIn_append _ _ (by rw [h5]; simp), h4, i1]
        rfl
      · intro n hn
        rw [List.getLast?_append, h5] at hn
        cases hx : (((l.filter (fun d => decide (d.1 ∈ D))).map (fun d => d.2.map Tok.cast)).flatten : Line K).getLast? with
        | none => rw [hx] at hn; simp at hn
        | some x => rw [hx] at hn; simp at hn; exact i2 n (by rw [hx, hn])
    · exact ⟨i1, i2⟩

/-- **C78.** The saved file is a preamble followed by the drawing. The preamble defines the common abbreviations, then `sz` if there is
a text, then exactly the text procedures that are used: each once, `sz` first. Running the file adds no other definition. -/
theorem C78_definitions (env : Env K) {heap heap' : Nat → List K} (h0 : heap 0 = []) {bg : Option (Ink K)} (hbg : PlainBg bg)
    {calls : List (Call K)} (hp : ∀ call ∈ calls, PlainCall call) {c : Canvas K}
    (hr : runCalls heap (Canvas.new bg) calls = .ok (heap', c)) {size : Option K} {margin : K} {file : List (Line K)}
    (hs : c.save size margin = .ok file) :
    ∃ pre names σ, file = pre ++ c.lines ∧ definedIn pre.flatten = commonNames ++ names ∧ (commonNames ++ names).Nodup ∧
      (∀ k, k ∈ names ↔ NeedsProc calls k) ∧ (∀ k ∈ names, names.idxOf "sz" ≤ names.idxOf k) ∧
      Runs env file.flatten σ ∧ (σ.dict.map Prod.fst).reverse = commonNames ++ names := by
  have hb : c.bgcolor = bg := by
    obtain ⟨_, _, _, hb, _⟩ := run_sim (env := env) (mapOf c.bbox size margin) heap calls hr hp c.deps (fun _ h => h)
    rw [hb]; rfl
  obtain ⟨pre, o1, _, hfile, _, _, _, _, _, _, bgl, ftl, hpre, hno⟩ := save_spec (env := env) hs (by rw [hb]; exact hbg)
  obtain ⟨σ, Q, hruns, hdict, _⟩ := file_runs env h0 hbg hp hr hs
  have hdeps : ∀ k, k ∈ c.deps ↔ NeedsProc calls k := by
    intro k
    rw [run_deps hr k]
    have : (Canvas.new bg : Canvas K).deps = [] := rfl
    rw [this]; simp
  have hkeys : ∀ k, NeedsProc calls k → k ∈ textKeys := by
    rintro k ⟨p, t, s, f, a, hm, hk⟩
    rcases hk with rfl | rfl
    · have hanch : a ∈ ["c", "t", "tr", "r", "br", "b", "bl", "l", "tl"] := by
        have : ∀ (calls : List (Call K)) (heap : Nat → List K) (c0 : Canvas K), runCalls heap c0 calls = .ok (heap', c) →
            Call.text p t s f a ∈ calls → a ∈ ["c", "t", "tr", "r", "br", "b", "bl", "l", "tl"] := by
          intro calls
          induction calls with
          | nil => intro _ _ _ h; simp at h
          | cons call calls ih =>
            intro heap c0 h hm
            rw [runCalls] at h
            obtain ⟨c1, h1, h2⟩ := Py.bind_ok.mp h
            rcases List.mem_cons.mp hm with rfl | hm
            · by_contra hx
              simp only [Canvas.call, Canvas.addtext, if_pos hx] at h1
              cases h1
            · exact ih _ _ h2 hm
        exact this calls heap _ hr hm
      simp only [List.mem_cons, List.not_mem_nil, or_false] at hanch
      rcases hanch with rfl | rfl | rfl | rfl | rfl | rfl | rfl | rfl | rfl <;> decide
    · decide
  obtain ⟨hd1, hd2⟩ := definedIn_defs (K := K) c.deps
  refine ⟨pre, textKeys.filter (fun k => decide (k ∈ c.deps)), σ, hfile, ?_, ?_, ?_, ?_, hruns, ?_⟩
  · rw [hpre]
    simp only [List.flatten_append, List.append_assoc]
    have hcm : definedIn ([[.comment "%!PS-Adobe-3.0 EPSF-3.0" []], [.comment "%%BoundingBox: {} {} {} {}" [(c.corners size margin).1,
          (c.corners size margin).2.1, (c.corners size margin).2.2.1, (c.corners size margin).2.2.2]],
        (PS.tokens commonDef).map Tok.cast, [.num 1, .word "setlinejoin"]] : List (Line K)).flatten = commonNames := by
      rw [common_tokens]
      simp [commonTable, Tok.cast, definedIn, commonNames]
    rw [definedIn_append _ _ (by
      intro n
      rw [show ∀ a b d e : Line K, ([a, b, d, e] : List (Line K)).flatten = (a ++ b ++ d) ++ e from fun a b d e => by simp, List.getLast?_append]
      simp), hcm, definedIn_append _ _ hd2, hd1, ← List.append_assoc bgl.flatten, definedIn_none (a := bgl.flatten ++ ftl.flatten ++ [[]].flatten)]
    · simp
    · simp only [List.flatten_cons, List.flatten_nil, List.append_nil, List.mem_append, List.mem_flatten]
      rintro t (⟨l, hl, ht⟩ | ⟨l, hl, ht⟩)
      · exact hno l (List.mem_append_left _ hl) t ht
      · exact hno l (List.mem_append_right _ hl) t ht
  · rw [List.nodup_append]
    refine ⟨by decide, List.Nodup.filter _ (by decide), ?_⟩
    intro a ha b hb e
    subst e
    have : ∀ x ∈ commonNames, x ∉ textKeys := by decide
    exact this a ha (List.mem_filter.mp hb).1
  · intro k
    rw [List.mem_filter, decide_eq_true_eq, hdeps]
    exact ⟨fun h => h.2, fun h => ⟨hkeys k h, h⟩⟩
  · intro k hk
    rw [List.mem_filter, decide_eq_true_eq, hdeps] at hk
    obtain ⟨p, t, s, f, a, hm, _⟩ := hk.2
    have hsz : decide ("sz" ∈ c.deps) = true := by
      rw [decide_eq_true_eq, hdeps]
      exact ⟨p, t, s, f, a, hm, .inr rfl⟩
    rw [textKeys, List.filter_cons_of_pos (by exact hsz), List.idxOf_cons_self]
    exact Nat.zero_le _
  · rw [hdict.1, preDict]
    simp only [List.map_append, List.map_reverse, List.reverse_append, List.reverse_reverse]
    have h1 : (commonDefs : List (String × List (Obj K))).map Prod.fst = commonTable.map Prod.fst := by
      rw [commonDefs, List.map_map]; rfl
    have h2 : (textProcs.filter (fun p => decide (p.1 ∈ c.deps)) : List (String × List (Obj K))).map Prod.fst =
        textKeys.filter (fun k => decide (k ∈ c.deps)) := by
      rw [← textProcs_keys (K := K), List.filter_map]
      rfl
    rw [h1, h2]
    simp [commonTable, commonNames]

example : ∃ heap' c file pre names, runCalls oneDash (Canvas.new (some (.num 1))) grayCalls = .ok (heap', c) ∧ c.save (some 100) 10 = .ok file ∧
    file = pre ++ c.lines ∧ definedIn pre.flatten = commonNames ++ names ∧ "sc" ∈ names ∧ "sz" ∈ names ∧ "stl" ∉ names := by
  obtain ⟨heap', c, file, h1, h2⟩ := goes_through (heap := oneDash) (bg := some (.num 1)) (calls := grayCalls) (size := some 100)
    (margin := 10) (by decide +kernel)
  obtain ⟨pre, names, _, h3, h4, _, h5, _⟩ := C78_definitions noEnv (rfl : oneDash 0 = []) (bg := some (.num 1)) (by rintro i ⟨⟩; exact .inl ⟨_, rfl⟩)
    (calls := grayCalls) (by simp [grayCalls, PlainCall, PlainString, balanced_iff, nest]) h1 h2
  refine ⟨heap', c, file, pre, names, h1, h2, h3, h4, (h5 _).mpr ?_, (h5 _).mpr ?_, fun h => ?_⟩
  · exact ⟨(2, 2), "Acre (AC)".toList, 12, "Times-Bold", "c", by simp [grayCalls], .inl (by decide)⟩
  · exact ⟨(2, 2), "Acre (AC)".toList, 12, "Times-Bold", "c", by simp [grayCalls], .inr rfl⟩
  · obtain ⟨p, t, s, f, a, hm, hk⟩ := (h5 _).mp h
    simp only [grayCalls, List.mem_cons, List.not_mem_nil, or_false, reduceCtorEq, false_or, Call.text.injEq] at hm
    obtain ⟨_, _, _, _, rfl⟩ := hm
    revert hk
    decide

/-! ### C79: images -/

theorem hexLoop_rows (d : List Nat) (w : Nat) (hd : ∀ b ∈ d, b < 256) : ∀ (n a : Nat) (c : Canvas K),
    ∃ ws : List String, (c.hexLoop d w n a).lines = c.lines ++ ws.map (fun s => [.word s]) ∧
      ws.map (fun s => hexBytes s.toList) = (List.range n).map (fun i => some ((d.drop (a + i * w)).take w)) := by
  intro n
  induction n with
  | zero => intro a c; exact ⟨[], by simp [Canvas.hexLoop], rfl⟩
  | succ n ih =>
    intro a c
    obtain ⟨ws, h1, h2⟩ := ih (a + w) (c.emit [.word (String.ofList (((d.take (a + w)).drop a).flatMap Canvas.hex02))])
    refine ⟨String.ofList (((d.take (a + w)).drop a).flatMap Canvas.hex02) :: ws, ?_, ?_⟩
    · rw [Canvas.hexLoop, h1]
      simp [Canvas.emit]
    · rw [List.range_succ_eq_map, List.map_cons, List.map_cons, h2, List.map_map]
      congr 1
      · rw [String.toList_ofList, hexBytes_hex02 _ (fun b hb => hd b (List.mem_of_mem_take (List.mem_of_mem_drop hb)))]
        simp [List.drop_take]
      · apply List.map_congr_left
        intro i _
        simp only [Function.comp_apply]
        rw [show a + w + i * w = a + (i + 1) * w by ring]

/-- **C79.** The lines `addimage` writes between `{<` and `>}` are one per row, and row `i` decodes to the bytes of that row. -/
theorem C79_image {c c' : Canvas K} {data : List Nat} {width : Nat} {position : Option (K × K)} {scale : K} {color : Bool}
    (hd : ∀ b ∈ data, b < 256) (h : c.addimage data width position scale color = .ok c') :
    let cwidth := if color then 3 * width else width
    ∃ (before : List (Line K)) (ws : List String) (after : List (Line K)), c'.lines = c.lines ++ before ++ [[.lbrace, .word "<"]] ++ ws.map (fun s => [.word s]) ++ [[.word ">", .rbrace]] ++ after ∧
      ws.map (fun s => hexBytes s.toList) = (List.range (data.length / cwidth)).map (fun i => some ((data.drop (i * cwidth)).take cwidth)) := by
  simp only [Canvas.addimage] at h ⊢
  generalize (if color = true then 3 * width else width) = cwidth at h ⊢
  by_cases hcw : cwidth = 0
  · rw [if_pos hcw] at h; cases h
  · rw [if_neg hcw] at h
    cases h
    obtain ⟨ws, h1, h2⟩ := hexLoop_rows data cwidth hd (data.length / cwidth) 0
      (((((c.emit [.word "gs"]).translated position).emit [.num ((width : K) * scale), .num (((data.length / cwidth : Nat) : K) * scale), .word "scale"]).emit
        [.num (width : K), .num ((data.length / cwidth : Nat) : K), .num 8, .word "[", .num (width : K), .num 0, .num 0,
          .num (-((data.length / cwidth : Nat) : K)), .num 0, .num ((data.length / cwidth : Nat) : K), .word "]"]).emit [.lbrace, .word "<"])
    obtain ⟨pre, hpre⟩ : ∃ pre : List (Line K), ((c.emit [.word "gs"]).translated position).lines = c.lines ++ pre := by
      cases position with
      | none => exact ⟨[[.word "gs"]], rfl⟩
      | some p => exact ⟨[[.word "gs"], [.num p.1, .num p.2, .word "translate"]], by simp [Canvas.translated, Canvas.emit]⟩
    refine ⟨pre ++ [[.num ((width : K) * scale), .num (((data.length / cwidth : Nat) : K) * scale), .word "scale"],
        [.num (width : K), .num ((data.length / cwidth : Nat) : K), .num 8, .word "[", .num (width : K), .num 0, .num 0,
          .num (-((data.length / cwidth : Nat) : K)), .num 0, .num ((data.length / cwidth : Nat) : K), .word "]"]], ws,
      [if color then [.word "false", .num 3, .word "colorimage"] else [.word "image"], [.word "gr"]], ?_, ?_⟩
    · have hl : ∀ (x : Canvas K) (l : Line K), (x.emit l).lines = x.lines ++ [l] := fun _ _ => rfl
      simp only [hl, hpre] at h1
      cases color <;> simp only [hl, h1, if_true, if_false, Bool.false_eq_true] <;> simp
    · rw [h2]
      simp

example : ∃ c' : Canvas ℚ, (Canvas.new none).addimage [1, 2, 3, 250, 251, 252, 9] 1 none 1 true = .ok c' ∧
    [.word "010203"] ∈ c'.lines ∧ [.word "fafbfc"] ∈ c'.lines := by
  refine ⟨_, rfl, ?_, ?_⟩ <;> decide +kernel

/-! ### C80: copies -/

/-- No two canvases share an object, and every object of a canvas exists. -/
structure World.Ok (w : World K) : Prop where
  old : ∀ o ∈ w.canvases, o.lines < w.next ∧ o.state < w.next ∧ o.deps < w.next
  apart : w.canvases.Pairwise (fun a b => a.lines ≠ b.lines ∧ a.state ≠ b.state ∧ a.deps ≠ b.deps)

/-- The canvases as values. -/
def World.values (w : World K) : Values K := ⟨w.canvases.map w.view, w.lists⟩

theorem alloc_ok {w : World K} (h : w.Ok) (c : Canvas K) : (w.alloc c).Ok ∧ (w.alloc c).values = ⟨w.canvases.map w.view ++ [c], w.lists⟩ := by
  refine ⟨⟨?_, ?_⟩, ?_⟩
  · intro o ho
    rcases List.mem_append.mp ho with ho | ho
    · obtain ⟨h1, h2, h3⟩ := h.old o ho
      exact ⟨Nat.lt_succ_of_lt h1, Nat.lt_succ_of_lt h2, Nat.lt_succ_of_lt h3⟩
    · rw [List.mem_singleton] at ho
      subst ho
      exact ⟨Nat.lt_succ_self _, Nat.lt_succ_self _, Nat.lt_succ_self _⟩
  · show (w.canvases ++ [_]).Pairwise _
    rw [List.pairwise_append]
    refine ⟨h.apart, List.pairwise_singleton _ _, ?_⟩
    intro a ha b hb
    rw [List.mem_singleton] at hb
    subst hb
    obtain ⟨h1, h2, h3⟩ := h.old a ha
    exact ⟨h1.ne, h2.ne, h3.ne⟩
  · simp only [World.values, World.alloc, List.map_append, List.map_cons, List.map_nil, Values.mk.injEq, and_true]
    congr 1
    · apply List.map_congr_left
      intro o ho
      obtain ⟨h1, h2, h3⟩ := h.old o ho
      simp [World.view, Function.update_of_ne h1.ne, Function.update_of_ne h2.ne, Function.update_of_ne h3.ne]
    · simp [World.view]

theorem store_ok {w : World K} (h : w.Ok) {i : Nat} {o : CanvasObj K} (hi : w.canvases[i]? = some o) (c : Canvas K) (hb : c.bgcolor = o.bgcolor) :
    (w.store i o c).Ok ∧ (w.store i o c).canvases.map (w.store i o c).view = (w.canvases.map w.view).set i c := by
  obtain ⟨hlt, hget⟩ := List.getElem?_eq_some_iff.mp hi
  have ho : o ∈ w.canvases := hget ▸ List.getElem_mem hlt
  refine ⟨⟨?_, ?_⟩, ?_⟩
  · intro x hx
    rcases List.mem_or_eq_of_mem_set hx with hx | rfl
    · exact h.old x hx
    · exact h.old o ho
  · rw [List.pairwise_iff_getElem]
    intro a b ha hb' hab
    have ha' : a < w.canvases.length := by simpa [World.store] using ha
    have hb'' : b < w.canvases.length := by simpa [World.store] using hb'
    have := (List.pairwise_iff_getElem.mp h.apart) a b ha' hb'' hab
    simp only [World.store, List.getElem_set]
    split <;> split <;> rename_i e1 e2
    · omega
    · subst e1; rw [hget] at this; exact this
    · subst e2; rw [hget] at this; exact this
    · exact this
  · apply List.ext_getElem
    · simp [World.store]
    · intro j h1 h2
      have hj : j < w.canvases.length := by simpa using h2
      simp only [World.store, List.getElem_map, List.getElem_set]
      by_cases e : i = j
      · subst e
        rw [if_pos rfl, if_pos rfl]
        simp [World.view, ← hb]
      · rw [if_neg e, if_neg e]
        have hne : (w.canvases[j]).lines ≠ o.lines ∧ (w.canvases[j]).state ≠ o.state ∧ (w.canvases[j]).deps ≠ o.deps := by
          rcases Nat.lt_or_gt_of_ne e with hl | hl
          · have := (List.pairwise_iff_getElem.mp h.apart) i j hlt hj hl
            rw [hget] at this
            exact ⟨this.1.symm, this.2.1.symm, this.2.2.symm⟩
          · have := (List.pairwise_iff_getElem.mp h.apart) j i hj hlt hl
            rw [hget] at this
            exact this
        simp [World.view, Function.update_of_ne hne.1, Function.update_of_ne hne.2.1, Function.update_of_ne hne.2.2]

theorem setink_bg {c c' : Canvas K} {i : Ink K} (h : c.setink i = .ok c') : c'.bgcolor = c.bgcolor := by
  obtain ⟨_, _, _, he, _⟩ := setink_spec (env := ⟨fun _ _ => (0, 0, 0, 0), fun _ _ => (0, 0, 0, 0), fun _ _ _ => (0, 0)⟩) h
  exact he.bg

theorem paint_bg {c c' : Canvas K} {f s : Option (Ink K)} (h : c.paint f s = .ok c') : c'.bgcolor = c.bgcolor := by
  obtain ⟨_, _, he, _⟩ := paint_spec (env := ⟨fun _ _ => (0, 0, 0, 0), fun _ _ => (0, 0, 0, 0), fun _ _ _ => (0, 0)⟩) h
  exact he.bg

theorem lineLoop_bg (c : Canvas K) (b : BBox K) (ps : List (K × K)) : (c.lineLoop b ps).1.bgcolor = c.bgcolor := by
  induction ps generalizing c b with
  | nil => rfl
  | cons p ps ih => exact (ih _ _).trans rfl

theorem arctoLoop_bg (c : Canvas K) (r : K) (ps : List ((K × K) × (K × K))) : (c.arctoLoop r ps).bgcolor = c.bgcolor := by
  induction ps generalizing c with
  | nil => rfl
  | cons p ps ih => exact (ih _).trans rfl

theorem hexLoop_bg (c : Canvas K) (d : List Nat) (w n a : Nat) : (c.hexLoop d w n a).bgcolor = c.bgcolor := by
  induction n generalizing c a with
  | zero => rfl
  | succ n ih => exact (ih _ _).trans rfl

theorem call_bg {heap : Nat → List K} {c c' : Canvas K} {call : Call K} (h : c.call heap call = .ok c') : c'.bgcolor = c.bgcolor := by
  cases call with
  | text p t s f a =>
    simp only [Canvas.call, Canvas.addtext] at h
    split at h
    · cases h
    · cases h; rfl
  | setgray v => exact setink_bg (i := .num v) h
  | setcolor r g b => exact setink_bg (i := .tuple [r, g, b]) h
  | setink i => exact setink_bg h
  | setwidth w =>
    simp only [Canvas.call, Except.ok.injEq, Canvas.setwidth] at h
    split at h <;> subst h <;> rfl
  | setdash i o =>
    simp only [Canvas.call, Except.ok.injEq, Canvas.setdash] at h
    split at h <;> subst h <;> rfl
  | circle ce r f s =>
    obtain ⟨c2, h2, h⟩ := Py.bind_ok.mp h
    cases h
    exact (paint_bg h2).trans rfl
  | polyline ps s =>
    cases ps with
    | nil => cases h; rfl
    | cons p ps =>
      simp only [Canvas.call, Canvas.addpolyline] at h
      cases s with
      | none => cases h; exact (lineLoop_bg _ _ _).trans rfl
      | some s =>
        obtain ⟨c2, h2, h⟩ := Py.bind_ok.mp h
        cases h
        exact (setink_bg h2).trans ((lineLoop_bg _ _ _).trans rfl)
  | polygon ps f s =>
    cases ps with
    | nil => cases h; rfl
    | cons p ps =>
      obtain ⟨c2, h2, h⟩ := Py.bind_ok.mp h
      cases h
      exact (paint_bg h2).trans ((lineLoop_bg _ _ _).trans rfl)
  | rounded ps r f s =>
    match ps, h with
    | p :: q :: ps, h =>
      obtain ⟨c2, h2, h⟩ := Py.bind_ok.mp h
      obtain ⟨b, _, h⟩ := Py.bind_ok.mp h
      cases h
      exact (paint_bg h2).trans ((arctoLoop_bg _ _ _).trans rfl)
    | [_], h => cases h
    | [], h => cases h
  | image d w p s co =>
    simp only [Canvas.call, Canvas.addimage] at h
    generalize (if co = true then 3 * w else w) = cw at h
    split at h
    · cases h
    · simp only [Except.ok.injEq] at h
      subst h
      have : ∀ c : Canvas K, (c.translated p).bgcolor = c.bgcolor := by intro c; cases p <;> rfl
      cases co <;> exact (hexLoop_bg _ _ _ _ _).trans (this _)
  | resetbbox => cases h; rfl
  | mutate i l => cases h; rfl

theorem step_ok {w w' : World K} {s : World.Step K} (h : w.Ok) (hs : w.step s = .ok w') : w'.Ok ∧ w.values.step s = .ok w'.values := by
  cases s with
  | new bg =>
    cases hs
    obtain ⟨h1, h2⟩ := alloc_ok h (Canvas.new bg)
    exact ⟨h1, by rw [h2]; rfl⟩
  | copy i =>
    simp only [World.step] at hs
    cases hi : w.canvases[i]? with
    | none => rw [hi] at hs; cases hs
    | some o =>
      rw [hi] at hs
      cases hs
      obtain ⟨h1, h2⟩ := alloc_ok h { w.view o with bbox := o.bbox.copy }
      refine ⟨h1, ?_⟩
      rw [h2]
      simp [Values.step, World.values, List.getElem?_map, hi, BBox.copy, BBox.ofCorners, World.view]
  | call i call =>
    simp only [World.step] at hs
    cases hi : w.canvases[i]? with
    | none => rw [hi] at hs; cases hs
    | some o =>
      rw [hi] at hs
      obtain ⟨c, hc, hs⟩ := Py.bind_ok.mp hs
      cases hs
      obtain ⟨h1, h2⟩ := store_ok h hi c (call_bg hc)
      refine ⟨⟨h1.old, h1.apart⟩, ?_⟩
      simp only [Values.step, World.values, List.getElem?_map, hi, Option.map_some]
      rw [hc]
      show Except.ok _ = Except.ok _
      rw [← h2]
      rfl
  | mutate i l =>
    cases hs
    exact ⟨⟨h.old, h.apart⟩, rfl⟩

theorem run_ok {w w' : World K} {ss : List (World.Step K)} (h : w.Ok) (hs : w.run ss = .ok w') : w'.Ok ∧ w.values.run ss = .ok w'.values := by
  induction ss generalizing w with
  | nil => cases hs; exact ⟨h, rfl⟩
  | cons s ss ih =>
    rw [World.run] at hs
    obtain ⟨w1, h1, h2⟩ := Py.bind_ok.mp hs
    obtain ⟨o1, v1⟩ := step_ok h h1
    obtain ⟨o2, v2⟩ := ih o1 h2
    refine ⟨o2, ?_⟩
    rw [Values.run, v1]
    exact v2

/-- No canvas yet. -/
def World.empty (lists : Nat → List K) : World K := ⟨fun _ => [], fun _ => psDefaults, fun _ => [], 0, [], lists⟩

theorem empty_ok (lists : Nat → List K) : (World.empty lists).Ok := ⟨by simp [World.empty], List.Pairwise.nil⟩

theorem values_other {v v' : Values K} {j : Nat} (hj : j < v.canvases.length) {ss : List (World.Step K)}
    (hno : ∀ s ∈ ss, ∀ call, s ≠ .call j call) (hs : v.run ss = .ok v') : v'.canvases[j]? = v.canvases[j]? := by
  induction ss generalizing v with
  | nil => cases hs; rfl
  | cons s ss ih =>
    rw [Values.run] at hs
    obtain ⟨v1, h1, h2⟩ := Py.bind_ok.mp hs
    have hkeep : v1.canvases[j]? = v.canvases[j]? ∧ v.canvases.length ≤ v1.canvases.length := by
      cases s with
      | new bg => cases h1; exact ⟨List.getElem?_append_left hj, by simp⟩
      | copy i =>
        simp only [Values.step] at h1
        cases hi : v.canvases[i]? with
        | none => rw [hi] at h1; cases h1
        | some o => rw [hi] at h1; cases h1; exact ⟨List.getElem?_append_left hj, by simp⟩
      | call i call =>
        simp only [Values.step] at h1
        cases hi : v.canvases[i]? with
        | none => rw [hi] at h1; cases h1
        | some o =>
          rw [hi] at h1
          obtain ⟨c, hc, h1⟩ := Py.bind_ok.mp h1
          cases h1
          have : i ≠ j := by rintro rfl; exact hno _ List.mem_cons_self call rfl
          exact ⟨List.getElem?_set_ne this, by simp⟩
      | mutate i l => cases h1; exact ⟨rfl, le_refl _⟩
    rw [ih (lt_of_lt_of_le hj hkeep.2) (fun s hs => hno s (List.mem_cons_of_mem _ hs)) h2, hkeep.1]

/-- **C80.** A program that makes canvases, copies them and draws on them behaves as if canvases were values (`Values`); and so, after a
copy, the copy is what the original was, and whatever happens to every other canvas leaves a canvas unchanged. -/
theorem C80_values {lists : Nat → List K} {ss : List (World.Step K)} {w : World K} (h : (World.empty lists).run ss = .ok w) :
    (⟨[], lists⟩ : Values K).run ss = .ok w.values ∧
    (∀ i w', w.step (.copy i) = .ok w' → ∃ o o', w.canvases[i]? = some o ∧ w'.canvases[w.canvases.length]? = some o' ∧ w'.view o' = w.view o) ∧
    ∀ j, j < w.canvases.length → ∀ ss' w', (∀ s ∈ ss', ∀ call, s ≠ .call j call) → w.run ss' = .ok w' →
      (w'.canvases[j]?).map w'.view = (w.canvases[j]?).map w.view := by
  obtain ⟨ok, hv⟩ := run_ok (empty_ok lists) h
  refine ⟨hv, ?_, ?_⟩
  · intro i w' hs
    simp only [World.step] at hs
    cases hi : w.canvases[i]? with
    | none => rw [hi] at hs; cases hs
    | some o =>
      rw [hi] at hs
      cases hs
      obtain ⟨_, h2⟩ := alloc_ok ok { w.view o with bbox := o.bbox.copy }
      refine ⟨o, _, rfl, by simp [World.alloc]; rfl, ?_⟩
      simp [World.view, World.alloc, BBox.copy, BBox.ofCorners]
  · intro j hj ss' w' hno hs
    obtain ⟨_, hv'⟩ := run_ok ok hs
    have := values_other (by simpa [World.values] using hj) hno hv'
    simpa [World.values, List.getElem?_map] using this

example : ∃ w w' : World ℚ, (World.empty oneDash).run [.new none, .call 0 (.circle (1, 1) 1 none none), .copy 0] = .ok w ∧
    w.run [.call 0 (.setwidth 3), .call 0 (.text (0, 0) "a".toList 3 "Courier" "c")] = .ok w' ∧
    w'.values.canvases.map (·.lines.length) = [3, 1] ∧ w'.values.canvases.map (·.deps) = [["sc", "sz"], []] := by
  refine ⟨_, _, rfl, rfl, ?_, ?_⟩ <;> decide +kernel

end Vector
end Coral
