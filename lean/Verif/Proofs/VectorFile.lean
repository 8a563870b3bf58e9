import Verif.Proofs.Vector
import Mathlib.Data.List.Nodup

/-! # The whole file: the preamble and the history -/
set_option linter.unusedSectionVars false
namespace Coral
namespace Vector
open PS

variable {K : Type} [Field K] [LinearOrder K] [IsStrictOrderedRing K] {env : Env K}

/-! ### Histories -/

theorem setink_deps {c c' : Canvas K} {i : Ink K} (h : c.setink i = .ok c') : c'.deps = c.deps :=
  (setink_spec (env := ⟨fun _ _ => (0, 0, 0, 0), fun _ _ => (0, 0, 0, 0), fun _ _ _ => (0, 0)⟩) h).choose_spec.choose_spec.choose_spec.2.1

theorem paint_deps {c c' : Canvas K} {f s : Option (Ink K)} (h : c.paint f s = .ok c') : c'.deps = c.deps := by
  obtain ⟨_, _, _, h, _⟩ := paint_spec (env := ⟨fun _ _ => (0, 0, 0, 0), fun _ _ => (0, 0, 0, 0), fun _ _ _ => (0, 0)⟩) h
  exact h

theorem lineLoop_deps (c : Canvas K) (b : BBox K) (ps : List (K × K)) : (c.lineLoop b ps).1.deps = c.deps := by
  induction ps generalizing c b with
  | nil => rfl
  | cons p ps ih => exact (ih _ _).trans rfl

theorem arctoLoop_deps (c : Canvas K) (r : K) (ps : List ((K × K) × (K × K))) : (c.arctoLoop r ps).deps = c.deps := by
  induction ps generalizing c with
  | nil => rfl
  | cons p ps ih => exact (ih _).trans rfl

theorem hexLoop_deps (c : Canvas K) (d : List Nat) (w n a : Nat) : (c.hexLoop d w n a).deps = c.deps := by
  induction n generalizing c a with
  | zero => rfl
  | succ n ih => exact (ih _ _).trans rfl

theorem call_deps {heap : Nat → List K} {c c' : Canvas K} {call : Call K} (h : c.call heap call = .ok c') :
    ∃ ds, c'.deps = c.deps ++ ds ∧ (∀ p t s f a, call = .text p t s f a → ds = ["s" ++ a, "sz"]) ∧
      ((∀ p t s f a, call ≠ .text p t s f a) → ds = []) := by
  have none : c'.deps = c.deps → (∀ p t s f a, call ≠ .text p t s f a) → ∃ ds, c'.deps = c.deps ++ ds ∧
      (∀ p t s f a, call = .text p t s f a → ds = ["s" ++ a, "sz"]) ∧ ((∀ p t s f a, call ≠ .text p t s f a) → ds = []) :=
    fun h hn => ⟨[], by simp [h], fun p t s f a e => absurd e (hn p t s f a), fun _ => rfl⟩
  cases call with
  | text p t s f a =>
    simp only [Canvas.call, Canvas.addtext] at h
    split at h
    · cases h
    · rename_i ha
      simp only [not_not] at ha
      simp only [Except.ok.injEq] at h
      subst h
      have hkey : "s" ++ a ∈ depKeys := by
        simp only [List.mem_cons, List.not_mem_nil, or_false] at ha
        rcases ha with rfl | rfl | rfl | rfl | rfl | rfl | rfl | rfl | rfl <;> decide
      refine ⟨["s" ++ a, "sz"], by simp [hkey], ?_, fun h => absurd rfl (h p t s f a)⟩
      intro p' t' s' f' a' e
      injection e with _ _ _ _ e
      rw [e]
  | setgray v => exact none (setink_deps (i := .num v) h) (by simp)
  | setcolor r g b => exact none (setink_deps (i := .tuple [r, g, b]) h) (by simp)
  | setink i => exact none (setink_deps h) (by simp)
  | setwidth w =>
    refine none ?_ (by simp)
    simp only [Canvas.call, Except.ok.injEq, Canvas.setwidth] at h
    split at h <;> subst h <;> rfl
  | setdash i o =>
    refine none ?_ (by simp)
    simp only [Canvas.call, Except.ok.injEq, Canvas.setdash] at h
    split at h <;> subst h <;> rfl
  | circle ce r f s =>
    refine none ?_ (by simp)
    obtain ⟨c2, h2, h⟩ := Py.bind_ok.mp h
    cases h
    exact (paint_deps h2).trans rfl
  | polyline ps s =>
    refine none ?_ (by simp)
    cases ps with
    | nil => cases h; rfl
    | cons p ps =>
      simp only [Canvas.call, Canvas.addpolyline] at h
      have h3 := lineLoop_deps ((c.emit [.word "np"]).emit [.num p.1, .num p.2, .word "m"]) (BBox.ofCorners p p) ps
      cases s with
      | none => cases h; exact h3
      | some s =>
        obtain ⟨c2, h2, h⟩ := Py.bind_ok.mp h
        cases h
        exact (setink_deps h2).trans h3
  | polygon ps f s =>
    refine none ?_ (by simp)
    cases ps with
    | nil => cases h; rfl
    | cons p ps =>
      obtain ⟨c2, h2, h⟩ := Py.bind_ok.mp h
      cases h
      exact (paint_deps h2).trans (lineLoop_deps ((c.emit [.word "np"]).emit [.num p.1, .num p.2, .word "m"]) (BBox.ofCorners p p) ps)
  | rounded ps r f s =>
    refine none ?_ (by simp)
    match ps, h with
    | [], h => cases h
    | [_], h => cases h
    | p1 :: p2 :: rest, h =>
      obtain ⟨c2, h2, h⟩ := Py.bind_ok.mp h
      cases h
      exact (paint_deps h2).trans (arctoLoop_deps _ _ _)
  | image d w po sc co =>
    refine none ?_ (by simp)
    simp only [Canvas.call, Canvas.addimage] at h
    generalize (if co = true then 3 * w else w) = cw at h
    by_cases hcw : cw = 0
    · rw [if_pos hcw] at h; cases h
    · rw [if_neg hcw] at h
      cases h
      have h1 : ∀ c0 : Canvas K, (c0.translated po).deps = c0.deps := by intro c0; cases po <;> rfl
      cases co <;> simp [hexLoop_deps, h1]
  | resetbbox => cases h; exact none rfl (by simp)
  | mutate i l => cases h; exact none rfl (by simp)

/-- A history appends code that does to the machine what the history does to the pen. -/
theorem run_sim (m : CTM K) (heap : Nat → List K) : ∀ (calls : List (Call K)) {heap' : Nat → List K} {c c' : Canvas K},
    runCalls heap c calls = .ok (heap', c') → (∀ call ∈ calls, PlainCall call) → ∀ D : List String, (∀ k ∈ c'.deps, k ∈ D) →
    ∃ L objs, c'.lines = c.lines ++ L ∧ c'.bgcolor = c.bgcolor ∧ Parses L.flatten objs ∧
    ∀ (pen : Pen K) (σ : St K), Std σ.dict → TextDefs D σ.dict → Match m heap c pen σ →
      ∃ τ Q, Exec env objs σ τ ∧ (τ.dict = σ.dict ∧ τ.stack.length = σ.stack.length + (calls.map spill).sum) ∧ Match m heap c' (pen.draw env m heap calls).1 τ ∧
        τ.page = σ.page ++ Q ∧ Q.map noInk = (pen.draw env m heap calls).2.map noInk ∧
        ∀ mode, (∀ call ∈ calls, InksOk mode call) → Cached mode c.state pen.ink → σ.gs.ink = pen.ink →
          Q = (pen.draw env m heap calls).2 ∧ τ.gs.ink = (pen.draw env m heap calls).1.ink ∧
          Cached mode c'.state τ.gs.ink := by
  intro calls
  induction calls with
  | nil =>
    intro heap' c c' h _ D _
    simp only [runCalls, Except.ok.injEq, Prod.mk.injEq] at h
    obtain ⟨_, rfl⟩ := h
    refine ⟨[], [], by simp, rfl, .nil, ?_⟩
    intro pen σ hstd _ hm
    exact ⟨σ, [], .nil _, ⟨rfl, rfl⟩, hm, by simp, rfl, fun mode _ h1 h2 => ⟨rfl, h2, by rw [h2]; exact h1⟩⟩
  | cons call calls ih =>
    intro heap' c c' h hpl D hD
    rw [runCalls] at h
    obtain ⟨c1, h1, h⟩ := Py.bind_ok.mp h
    have hp1 := hpl call List.mem_cons_self
    have hheap : heapAfter heap call = heap := by
      cases call <;> first | rfl | exact hp1.elim
    rw [hheap] at h
    have hmono : ∀ k ∈ c1.deps, k ∈ c'.deps := by
      clear ih hD
      have : ∀ (calls : List (Call K)) (heap : Nat → List K) (c1 : Canvas K), runCalls heap c1 calls = .ok (heap', c') → ∀ k ∈ c1.deps, k ∈ c'.deps := by
        intro calls
        induction calls with
        | nil =>
          intro heap c1 h
          simp only [runCalls, Except.ok.injEq, Prod.mk.injEq] at h
          obtain ⟨_, rfl⟩ := h
          exact fun _ h => h
        | cons call calls ih =>
          intro heap c1 h k hk
          rw [runCalls] at h
          obtain ⟨c2, h2, h⟩ := Py.bind_ok.mp h
          obtain ⟨ds, hds, _⟩ := call_deps h2
          exact ih _ _ h k (by rw [hds]; exact List.mem_append_left _ hk)
      exact this calls heap c1 h
    obtain ⟨L1, o1, l1, b1, p1, r1⟩ := call_sim (env := env) m heap h1 hp1 D (fun k hk => hD k (hmono k hk))
    obtain ⟨L2, o2, l2, b2, p2, r2⟩ := ih h (fun c hc => hpl c (List.mem_cons_of_mem _ hc)) D hD
    refine ⟨L1 ++ L2, o1 ++ o2, by rw [l2, l1, List.append_assoc], by rw [b2, b1], by rw [List.flatten_append]; exact p1.append p2, ?_⟩
    intro pen σ hstd htd hm
    obtain ⟨τ1, Q1, e1, ⟨d1, s1⟩, m1, g1, n1, i1⟩ := r1 pen σ hstd htd hm
    obtain ⟨τ2, Q2, e2, ⟨d2, s2⟩, m2, g2, n2, i2⟩ := r2 _ τ1 (by rw [d1]; exact hstd) (by rw [d1]; exact htd) m1
    refine ⟨τ2, Q1 ++ Q2, e1.append e2, ⟨by rw [d2, d1], by rw [s2, s1, List.map_cons, List.sum_cons, Nat.add_assoc]⟩, ?_, by rw [g2, g1, List.append_assoc], ?_, ?_⟩
    · simp only [Pen.draw, hheap]; exact m2
    · simp only [Pen.draw, hheap, List.map_append, n1, n2]
    · intro mode hi hc hk
      obtain ⟨q1, k1, c1'⟩ := i1 mode (hi _ List.mem_cons_self) hc hk
      obtain ⟨q2, k2, c2'⟩ := i2 mode (fun c hc => hi c (List.mem_cons_of_mem _ hc)) (by rw [← k1]; exact c1') k1
      simp only [Pen.draw, hheap]
      exact ⟨by rw [q1, q2], k2, c2'⟩

/-! ### The preamble -/

theorem parses_all {ts : List (Tok K)} (h : ∀ t ∈ ts, (toObj? t).isSome) : Parses ts (ts.filterMap toObj?) := by
  refine .flat ?_
  induction ts with
  | nil => rfl
  | cons t ts ih =>
    have h1 := h t List.mem_cons_self
    obtain ⟨o, ho⟩ := Option.isSome_iff_exists.mp h1
    rw [List.map_cons, List.filterMap_cons_some ho, List.map_cons, ho, ih (fun t ht => h t (List.mem_cons_of_mem _ ht))]

/-- The code of definitions by `bd`. -/
def defsCode (l : List (String × List (Obj K))) : List (Obj K) := l.flatMap (fun d => [.lit d.1, .proc d.2, .name "bd"])

/-- `bd` works. -/
def BdOk (d : List (String × List (Obj K))) : Prop :=
  d.lookup "bd" = some [.name "bind", .name "def"] ∧ d.lookup "bind" = none ∧ d.lookup "def" = none

theorem exec_defs : ∀ (l : List (String × List (Obj K))) (σ : St K), BdOk σ.dict →
    (∀ d ∈ l, d.1 ≠ "bd" ∧ d.1 ≠ "bind" ∧ d.1 ≠ "def") → Exec env (defsCode l) σ { σ with dict := l.reverse ++ σ.dict } := by
  intro l
  induction l with
  | nil => intro σ _ _; exact .nil _
  | cons d l ih =>
    intro σ hb hn
    obtain ⟨n1, n2, n3⟩ := hn d List.mem_cons_self
    have h2 := ih { σ with dict := (d.1, d.2) :: σ.dict } (by
      refine ⟨?_, ?_, ?_⟩
      · simp [List.lookup, beq_false_of_ne n1.symm, hb.1]
      · simp [List.lookup, beq_false_of_ne n2.symm, hb.2.1]
      · simp [List.lookup, beq_false_of_ne n3.symm, hb.2.2]) (fun d hd => hn d (List.mem_cons_of_mem _ hd))
    have h1 : Exec env [.lit d.1, .proc d.2, .name "bd"] σ { σ with dict := (d.1, d.2) :: σ.dict } := by
      refine .cons (body := []) (by rw [act]; simp) (.cons (body := []) (by rw [act]; simp) (.cons (body := [.name "bind", .name "def"])
        (σ1 := { σ with stack := .proc d.2 :: .lit d.1 :: σ.stack }) ?_ ?_))
      · simp [act, hb.1]
      · refine .cons (body := []) (σ1 := { σ with stack := .proc d.2 :: .lit d.1 :: σ.stack }) ?_ (.cons (body := []) ?_ (.nil _))
        · have : Op.ofName "bind" = some .bind := by decide
          simp [act, hb.2.1, this, operator]
        · have : Op.ofName "def" = some .define := by decide
          simp [act, hb.2.2, this, operator]
    have := h1.append h2
    simpa [defsCode] using this

/-- The names of `COMMONDEF` after `bd`. -/
def commonTable : List (String × String) :=
  [("m", "moveto"), ("rm", "rmoveto"), ("l", "lineto"), ("rl", "rlineto"), ("w", "setlinewidth"), ("v", "setgray"), ("rgb", "setrgbcolor"),
   ("gs", "gsave"), ("gr", "grestore"), ("s", "stroke"), ("f", "fill"), ("np", "newpath"), ("cp", "closepath")]

def commonDefs : List (String × List (Obj K)) := commonTable.map (fun p => (p.1, [.name p.2]))

theorem common_tokens : tokens commonDef =
    [.lit "bd", .lbrace, .word "bind", .word "def", .rbrace, .word "bind", .word "def"] ++
    commonTable.flatMap (fun p => [.lit p.1, .lbrace, .word p.2, .rbrace, .word "bd"]) := by decide +kernel

theorem common_parses : Parses ((tokens commonDef).map Tok.cast : Line K)
    ([.lit "bd", .proc [.name "bind", .name "def"], .name "bind", .name "def"] ++ defsCode commonDefs) := by
  rw [common_tokens, parses_iff]
  simp [commonTable, commonDefs, defsCode, Tok.cast, parse, lex, group]

/-- The procedures of `defs.ps`, in the order of the file. -/
def textProcs : List (String × List (Obj K)) :=
  ("sz", szBody) :: textTail.map (fun p => (p.1, .name "m" :: .name "sz" :: p.2))

def defTokens : List (String × List (Tok Int)) :=
  [("sz", [.lit "sz", .lbrace, .word "findfont", .word "exch", .word "scalefont", .word "setfont", .word "gs", .word "dup", .word "false",
      .word "charpath", .word "flattenpath", .word "pathbbox", .word "gr", .num 3, .num (-1), .word "roll", .word "sub", .num 3, .num 1,
      .word "roll", .word "sub", .word "neg", .rbrace, .word "bd"]),
   ("sc", [.lit "sc", .lbrace, .word "m", .word "sz", .num (-2), .word "div", .word "exch", .num (-2), .word "div", .word "rm", .word "show", .rbrace, .word "bd"]),
   ("st", [.lit "st", .lbrace, .word "m", .word "sz", .num (-2), .word "div", .word "exch", .word "neg", .word "rm", .word "show", .rbrace, .word "bd"]),
   ("str", [.lit "str", .lbrace, .word "m", .word "sz", .word "neg", .word "exch", .word "neg", .word "rm", .word "show", .rbrace, .word "bd"]),
   ("sr", [.lit "sr", .lbrace, .word "m", .word "sz", .word "neg", .word "exch", .num (-2), .word "div", .word "rm", .word "show", .rbrace, .word "bd"]),
   ("sbr", [.lit "sbr", .lbrace, .word "m", .word "sz", .word "neg", .word "exch", .word "pop", .num 0, .word "rm", .word "show", .rbrace, .word "bd"]),
   ("sb", [.lit "sb", .lbrace, .word "m", .word "sz", .num (-2), .word "div", .word "exch", .word "pop", .num 0, .word "rm", .word "show", .rbrace, .word "bd"]),
   ("sbl", [.lit "sbl", .lbrace, .word "m", .word "sz", .word "pop", .num 0, .word "exch", .word "pop", .num 0, .word "rm", .word "show", .rbrace, .word "bd"]),
   ("sl", [.lit "sl", .lbrace, .word "m", .word "sz", .word "pop", .num 0, .word "exch", .num (-2), .word "div", .word "rm", .word "show", .rbrace, .word "bd"]),
   ("stl", [.lit "stl", .lbrace, .word "m", .word "sz", .word "pop", .num 0, .word "exch", .word "neg", .word "rm", .word "show", .rbrace, .word "bd"])]

theorem defs_tokens : defs.map (fun d => (String.ofList d.1, tokens d.2)) = defTokens := by decide +kernel

theorem defTokens_keys : defTokens.map Prod.fst = (textProcs : List (String × List (Obj K))).map Prod.fst := by
  simp [defTokens, textProcs, textTail]

theorem defTokens_parses : List.Forall₂ (fun (d : String × List (Tok Int)) (p : String × List (Obj K)) =>
    d.1 = p.1 ∧ Parses (d.2.map Tok.cast) [.lit p.1, .proc p.2, .name "bd"]) defTokens textProcs := by
  simp only [defTokens, textProcs, textTail, List.map_cons, List.map_nil]
  refine .cons ⟨rfl, ?_⟩ (.cons ⟨rfl, ?_⟩ (.cons ⟨rfl, ?_⟩ (.cons ⟨rfl, ?_⟩ (.cons ⟨rfl, ?_⟩ (.cons ⟨rfl, ?_⟩ (.cons ⟨rfl, ?_⟩
    (.cons ⟨rfl, ?_⟩ (.cons ⟨rfl, ?_⟩ (.cons ⟨rfl, ?_⟩ .nil))))))))) <;>
  · rw [parses_iff]
    simp [Tok.cast, parse, lex, group, szBody]

/-- The lines of the definitions needed. -/
theorem defs_parse (D : List String) :
    Parses ((defs.filter (fun d => decide (String.ofList d.1 ∈ D))).map (fun d => (PS.tokens d.2).map Tok.cast) : List (Line K)).flatten
      (defsCode (textProcs.filter (fun p => decide (p.1 ∈ D)))) := by
  have h1 : (defs.filter (fun d => decide (String.ofList d.1 ∈ D))).map (fun d => ((PS.tokens d.2).map Tok.cast : Line K)) =
      ((defs.map (fun d => (String.ofList d.1, tokens d.2))).filter (fun d => decide (d.1 ∈ D))).map (fun d => d.2.map Tok.cast) := by
    generalize defs = l
    induction l with
    | nil => rfl
    | cons d l ih =>
      simp only [List.map_cons, List.filter_cons]
      split
      · simp [ih]
      · exact ih
  rw [h1, defs_tokens]
  have := defTokens_parses (K := K)
  generalize defTokens = a at this
  generalize (textProcs : List (String × List (Obj K))) = b at this
  induction this with
  | nil => exact .nil
  | cons h _ ih =>
    simp only [List.filter_cons, h.1]
    split
    · simp only [List.map_cons, List.flatten_cons, defsCode, List.flatMap_cons]
      exact h.2.append ih
    · exact ih

/-- The dictionary after the preamble. -/
def preDict (D : List String) : List (String × List (Obj K)) :=
  (textProcs.filter (fun p => decide (p.1 ∈ D))).reverse ++ (commonDefs.reverse ++ [("bd", [.name "bind", .name "def"])])

theorem lookup_none_of {α : Type} {s : String} : ∀ {l : List (String × α)}, (∀ p ∈ l, p.1 ≠ s) → l.lookup s = none
  | [], _ => rfl
  | p :: l, h => by
    rw [List.lookup, beq_false_of_ne (h p List.mem_cons_self).symm]
    exact lookup_none_of fun q hq => h q (List.mem_cons_of_mem _ hq)

theorem lookup_append_none {α : Type} {s : String} : ∀ {l m : List (String × α)}, l.lookup s = none → (l ++ m).lookup s = m.lookup s
  | [], _, _ => rfl
  | p :: l, m, h => by
    rw [List.lookup] at h
    rw [List.cons_append, List.lookup]
    cases hb : s == p.1 with
    | true => rw [hb] at h; cases h
    | false => rw [hb] at h; exact lookup_append_none h

theorem lookup_append_some {α : Type} {s : String} {v : α} : ∀ {l m : List (String × α)}, l.lookup s = some v → (l ++ m).lookup s = some v
  | [], _, h => by cases h
  | p :: l, m, h => by
    rw [List.lookup] at h
    rw [List.cons_append, List.lookup]
    cases hb : s == p.1 with
    | true => rw [hb] at h; exact h
    | false => rw [hb] at h; exact lookup_append_some h

theorem lookup_mem_unique {α : Type} : ∀ {l : List (String × α)} {p : String × α}, p ∈ l → (l.map Prod.fst).Nodup → l.lookup p.1 = some p.2
  | q :: l, p, hp, hn => by
    rw [List.map_cons, List.nodup_cons] at hn
    rw [List.lookup]
    rcases List.mem_cons.mp hp with rfl | hp
    · simp
    · rw [beq_false_of_ne (fun h : p.1 = q.1 => hn.1 (h ▸ List.mem_map_of_mem (f := Prod.fst) hp))]
      exact lookup_mem_unique hp hn.2

def textKeys : List String := ["sz", "sc", "st", "str", "sr", "sbr", "sb", "sbl", "sl", "stl"]

theorem textProcs_keys : (textProcs : List (String × List (Obj K))).map Prod.fst = textKeys := by
  simp [textProcs, textTail, textKeys]

theorem preDict_other (D : List String) {s : String} (h : s ∉ textKeys) :
    (preDict D : List (String × List (Obj K))).lookup s = (commonDefs.reverse ++ [("bd", [Obj.name "bind", Obj.name "def"])]).lookup s := by
  refine lookup_append_none (lookup_none_of ?_)
  rintro p hp rfl
  rw [List.mem_reverse, List.mem_filter] at hp
  exact h (by rw [← textProcs_keys (K := K)]; exact List.mem_map_of_mem hp.1)

theorem preDict_text (D : List String) {p : String × List (Obj K)} (hp : p ∈ (textProcs : List (String × List (Obj K)))) (hD : p.1 ∈ D) :
    (preDict D).lookup p.1 = some p.2 := by
  refine lookup_append_some (lookup_mem_unique ?_ ?_)
  · rw [List.mem_reverse, List.mem_filter]
    exact ⟨hp, by simpa using hD⟩
  · rw [List.map_reverse, List.nodup_reverse]
    refine List.Nodup.sublist ((List.filter_sublist).map _) ?_
    rw [textProcs_keys]
    decide

theorem lookup_mem {α : Type} {s : String} {v : α} : ∀ {l : List (String × α)}, l.lookup s = some v → (s, v) ∈ l
  | p :: l, h => by
    rw [List.lookup] at h
    cases hb : s == p.1 with
    | true =>
      rw [hb] at h
      have : s = p.1 := eq_of_beq hb
      subst this
      injection h with h
      subst h
      exact List.mem_cons_self
    | false => rw [hb] at h; exact List.mem_cons_of_mem _ (lookup_mem h)

theorem lookup_map {α β : Type} (f : α → β) (s : String) : ∀ l : List (String × α),
    (l.map (fun p => (p.1, f p.2))).lookup s = (l.lookup s).map f
  | [] => rfl
  | p :: l => by
    simp only [List.map_cons, List.lookup]
    cases s == p.1 with
    | true => rfl
    | false => exact lookup_map f s l

theorem preDict_common (D : List String) {s : String} (h : s ∉ textKeys) (hb : s ≠ "bd") :
    (preDict D : List (String × List (Obj K))).lookup s = (commonTable.reverse.lookup s).map (fun t => [.name t]) := by
  rw [preDict_other D h, commonDefs, ← List.map_reverse]
  have : ([("bd", [Obj.name "bind", Obj.name "def"])] : List (String × List (Obj K))).lookup s = none := by
    simp [List.lookup, beq_false_of_ne hb]
  rw [← lookup_map]
  cases hl : (List.map (fun p => (p.1, [Obj.name p.2])) commonTable.reverse : List (String × List (Obj K))).lookup s with
  | none => rw [lookup_append_none hl, this]
  | some v => rw [lookup_append_some hl]

/-- A word of the table is not defined and built in, or defined as a name that is. -/
def tableOk (x : String × Op) : Bool :=
  decide (x.1 ∉ textKeys ∧ x.1 ≠ "bd" ∧ x.2 ≠ Op.define) &&
  match commonTable.reverse.lookup x.1 with
  | none => decide (Op.ofName x.1 = some x.2)
  | some t => decide (t ∉ textKeys ∧ t ≠ "bd" ∧ commonTable.reverse.lookup t = none ∧ Op.ofName t = some x.2)

theorem table_all_ok : table.all tableOk = true := by decide +kernel

theorem std_preDict (D : List String) : Std (preDict D : List (String × List (Obj K))) := by
  intro s op h
  have := List.all_eq_true.mp table_all_ok _ (lookup_mem h)
  simp only [tableOk, Bool.and_eq_true, decide_eq_true_eq] at this
  obtain ⟨⟨h1, h2, h3⟩, h4⟩ := this
  refine ⟨h3, ?_⟩
  rw [preDict_common D h1 h2]
  cases hl : commonTable.reverse.lookup s with
  | none =>
    rw [hl] at h4
    exact .inl ⟨rfl, of_decide_eq_true h4⟩
  | some t =>
    rw [hl] at h4
    obtain ⟨h5, h6, h7, h8⟩ := of_decide_eq_true h4
    exact .inr ⟨t, rfl, by rw [preDict_common D h5 h6, h7]; rfl, h8⟩

theorem textDefs_preDict (D : List String) : TextDefs D (preDict D : List (String × List (Obj K))) := by
  refine ⟨fun h => preDict_text D (p := ("sz", szBody)) (by simp [textProcs]) h, ?_⟩
  intro k tail hk hD
  have := lookup_mem hk
  exact preDict_text D (p := (k, .name "m" :: .name "sz" :: tail)) (List.mem_cons_of_mem _ (List.mem_map.mpr ⟨_, this, rfl⟩)) hD

/-- The preamble: what it is and what it does. -/
theorem save_spec {c : Canvas K} {size : Option K} {margin : K} {file : List (Line K)} (h : c.save size margin = .ok file)
    (hbg : ∀ i, c.bgcolor = some i → (∃ v, i = .num v) ∨ ∃ r g b, i = .tuple [r, g, b]) :
    ∃ pre objs σ, file = pre ++ c.lines ∧ Parses pre.flatten objs ∧ Exec env objs St.init σ ∧ σ.dict = preDict c.deps ∧
      σ.gs = { (GState.init : GState K) with ctm := mapOf c.bbox size margin, ink := firstInk c.bgcolor } ∧
      σ.page = bgPaint c.bbox.x0 c.bbox.y0 c.bbox.x1 c.bbox.y1 margin c.bgcolor size ∧ σ.stack = [] ∧
      ∃ bg ft, pre = [[.comment "%!PS-Adobe-3.0 EPSF-3.0" []], [.comment "%%BoundingBox: {} {} {} {}" [(c.corners size margin).1,
          (c.corners size margin).2.1, (c.corners size margin).2.2.1, (c.corners size margin).2.2.2]],
        (PS.tokens commonDef).map Tok.cast, [.num 1, .word "setlinejoin"]] ++
        (defs.filter (fun d => decide (String.ofList d.1 ∈ c.deps))).map (fun d => (PS.tokens d.2).map Tok.cast) ++ bg ++ ft ++ [[]] ∧
        (∀ l ∈ bg ++ ft, ∀ t ∈ l, t ≠ .lbrace) := by
  rw [Canvas.save] at h
  obtain ⟨bg, h1, h⟩ := Py.bind_ok.mp h
  obtain ⟨ft, h2, h⟩ := Py.bind_ok.mp h
  simp only [pure, Except.pure, Except.ok.injEq] at h
  -- definitions
  let σ1 : St K := { (St.init : St K) with dict := preDict c.deps }
  have hdef : Exec env ([.lit "bd", .proc [.name "bind", .name "def"], .name "bind", .name "def"] ++ defsCode commonDefs ++
      [.num 1, .name "setlinejoin"] ++ defsCode (textProcs.filter (fun p => decide (p.1 ∈ c.deps)))) St.init σ1 := by
    have hb : Op.ofName "bind" = some .bind := by decide
    have hd : Op.ofName "def" = some .define := by decide
    have hj : Op.ofName "setlinejoin" = some .setlinejoin := by decide
    have e1 : Exec env [.lit "bd", .proc [.name "bind", .name "def"], .name "bind", .name "def"] (St.init : St K)
        { (St.init : St K) with dict := [("bd", [.name "bind", .name "def"])] } :=
      .cons (body := []) (by rw [act]; simp) (.cons (body := []) (by rw [act]; simp)
        (.cons (body := []) (σ1 := { (St.init : St K) with stack := [.proc [.name "bind", .name "def"], .lit "bd"] })
          (by simp [act, St.init, hb, operator])
          (.cons (body := []) (by simp [act, St.init, hd, operator]) (.nil _))))
    have e2 := exec_defs (env := env) commonDefs { (St.init : St K) with dict := [("bd", [.name "bind", .name "def"])] }
      ⟨by simp [List.lookup], by simp [List.lookup], by simp [List.lookup]⟩ (by simp [commonDefs, commonTable])
    have e3 : Exec env [.num 1, .name "setlinejoin"]
        { (St.init : St K) with dict := commonDefs.reverse ++ [("bd", [.name "bind", .name "def"])] }
        { (St.init : St K) with dict := commonDefs.reverse ++ [("bd", [.name "bind", .name "def"])] } := by
      refine .cons (body := []) (by rw [act]; simp) (.cons (body := []) ?_ (.nil _))
      have : (commonDefs.reverse ++ [("bd", [Obj.name "bind", Obj.name "def"])] : List (String × List (Obj K))).lookup "setlinejoin" = none := by
        simp [commonDefs, commonTable, List.lookup]
      simp [act, this, hj, operator, St.init]
    have e4 := exec_defs (env := env) (textProcs.filter (fun p => decide (p.1 ∈ c.deps)))
      { (St.init : St K) with dict := commonDefs.reverse ++ [("bd", [.name "bind", .name "def"])] }
      (by refine ⟨?_, ?_, ?_⟩ <;> simp [commonDefs, commonTable, List.lookup])
      (by
        intro d hd
        have : d.1 ∈ textKeys := by rw [← textProcs_keys (K := K)]; exact List.mem_map_of_mem (List.mem_filter.mp hd).1
        refine ⟨?_, ?_, ?_⟩ <;> (intro e; rw [e] at this; revert this; decide))
    exact ((e1.append e2).append e3).append e4
  have hstd : Std σ1.dict := std_preDict _
  -- the background
  obtain ⟨ob, pb, rb, nb⟩ : ∃ ob, Parses bg.flatten ob ∧ runOps env ob σ1 = some { σ1 with
      gs := { σ1.gs with ink := firstInk c.bgcolor }
      page := bgPaint c.bbox.x0 c.bbox.y0 c.bbox.x1 c.bbox.y1 margin c.bgcolor size } ∧ ∀ l ∈ bg, ∀ t ∈ l, t ≠ .lbrace := by
    cases hc : c.bgcolor with
    | none =>
      rw [Canvas.background, hc] at h1
      cases h1
      exact ⟨[], .nil, by simp [runOps, σ1, firstInk, bgPaint, St.init, GState.init], by simp⟩
    | some i =>
      rcases hbg i hc with ⟨v, rfl⟩ | ⟨r, g, b, rfl⟩
      · rw [Canvas.background, hc] at h1
        cases h1
        refine ⟨_, parses_all (by simp [toObj?]), ?_, by simp⟩
        cases size <;>
        simp [toObj?, runOps, operator, σ1, firstInk, bgPaint, St.init, GState.init, Canvas.corners, colour, CTM.apply]
      · rw [Canvas.background, hc] at h1
        cases h1
        refine ⟨_, parses_all (by simp [toObj?]), ?_, by simp⟩
        cases size <;>
        simp [toObj?, runOps, operator, σ1, firstInk, bgPaint, St.init, GState.init, Canvas.corners, colour, CTM.apply]
  -- the transformation
  obtain ⟨of, pf, rf, nf⟩ : ∃ of, Parses ft.flatten of ∧ (∀ σ : St K, σ.gs.ctm = ⟨1, 1, 0, 0⟩ → runOps env of σ = some { σ with
      gs := { σ.gs with ctm := mapOf c.bbox size margin } }) ∧ ∀ l ∈ ft, ∀ t ∈ l, t ≠ .lbrace := by
    cases size with
    | none =>
      rw [Canvas.fit] at h2
      cases h2
      exact ⟨[], .nil, fun σ hσ => by simp [runOps, mapOf, pageMap, ← hσ], by simp⟩
    | some s =>
      simp only [Canvas.fit] at h2
      split at h2
      · cases h2
      · cases h2
        refine ⟨_, parses_all (by simp [toObj?]), ?_, by simp⟩
        intro σ hσ
        simp [toObj?, runOps, operator, mapOf, pageMap, hσ, BBox.width, BBox.height, BBox.center]
        constructor <;> ring
  have eb := (runOps_exec hstd rb).1
  have ef := (runOps_exec (env := env) (by exact hstd) (rf { σ1 with
      gs := { σ1.gs with ink := firstInk c.bgcolor }
      page := bgPaint c.bbox.x0 c.bbox.y0 c.bbox.x1 c.bbox.y1 margin c.bgcolor size } rfl)).1
  refine ⟨_, _, _, h.symm, ?_, (hdef.append eb).append ef, rfl, rfl, rfl, rfl, bg, ft, rfl, ?_⟩
  · simp only [List.flatten_append]
    have p1 : Parses ([[.comment "%!PS-Adobe-3.0 EPSF-3.0" []], [.comment "%%BoundingBox: {} {} {} {}" [(c.corners size margin).1,
          (c.corners size margin).2.1, (c.corners size margin).2.2.1, (c.corners size margin).2.2.2]],
        (PS.tokens commonDef).map Tok.cast, [.num 1, .word "setlinejoin"]] : List (Line K)).flatten
        ([] ++ ([] ++ (([.lit "bd", .proc [.name "bind", .name "def"], .name "bind", .name "def"] ++ defsCode commonDefs) ++
          ([.num 1, .name "setlinejoin"] ++ [])))) := by
      simp only [List.flatten_cons]
      exact (Parses.comment _ _).append ((Parses.comment _ _).append (common_parses.append ((Parses.flat rfl).append .nil)))
    have p2 := (((p1.append (defs_parse (K := K) c.deps)).append pb).append pf).append (Parses.nil (K := K))
    simpa using p2
  · intro l hl
    rcases List.mem_append.mp hl with hl | hl
    · exact nb l hl
    · exact nf l hl

end Vector
end Coral
