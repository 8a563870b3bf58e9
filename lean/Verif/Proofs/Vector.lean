import Verif.Spec.Vector
import Verif.Proofs.PsString
import Verif.Proofs.PostScript
import Mathlib.Tactic.Ring

/-! # Lemmas about `vector` -/
set_option linter.unusedSectionVars false
namespace Coral
namespace Vector
open PS

variable {K : Type} [Field K] [LinearOrder K]

/-! ### Straight-line code -/

/-- The words that occur, and the operators they come to. -/
def table : List (String × Op) := [
  ("m", .moveto),
  ("rm", .rmoveto),
  ("l", .lineto),
  ("w", .setlinewidth),
  ("v", .setgray),
  ("rgb", .setrgbcolor),
  ("gs", .gsave),
  ("gr", .grestore),
  ("s", .stroke),
  ("f", .fill),
  ("np", .newpath),
  ("cp", .closepath),
  ("arc", .arc),
  ("arcto", .arcto),
  ("setdash", .setdash),
  ("setlinejoin", .setlinejoin),
  ("translate", .translate),
  ("scale", .scale),
  ("[", .lbracket),
  ("]", .rbracket),
  ("dup", .dup),
  ("pop", .pop),
  ("exch", .exch),
  ("roll", .roll),
  ("sub", .sub),
  ("neg", .neg),
  ("div", .div),
  ("false", .pushFalse),
  ("findfont", .findfont),
  ("scalefont", .scalefont),
  ("setfont", .setfont),
  ("charpath", .charpath),
  ("flattenpath", .flattenpath),
  ("pathbbox", .pathbbox),
  ("show", .showText),
  ("image", .image),
  ("colorimage", .colorimage)]

@[simp] theorem table_m : table.lookup "m" = some .moveto := by decide
@[simp] theorem table_rm : table.lookup "rm" = some .rmoveto := by decide
@[simp] theorem table_l : table.lookup "l" = some .lineto := by decide
@[simp] theorem table_w : table.lookup "w" = some .setlinewidth := by decide
@[simp] theorem table_v : table.lookup "v" = some .setgray := by decide
@[simp] theorem table_rgb : table.lookup "rgb" = some .setrgbcolor := by decide
@[simp] theorem table_gs : table.lookup "gs" = some .gsave := by decide
@[simp] theorem table_gr : table.lookup "gr" = some .grestore := by decide
@[simp] theorem table_s : table.lookup "s" = some .stroke := by decide
@[simp] theorem table_f : table.lookup "f" = some .fill := by decide
@[simp] theorem table_np : table.lookup "np" = some .newpath := by decide
@[simp] theorem table_cp : table.lookup "cp" = some .closepath := by decide
@[simp] theorem table_arc : table.lookup "arc" = some .arc := by decide
@[simp] theorem table_arcto : table.lookup "arcto" = some .arcto := by decide
@[simp] theorem table_setdash : table.lookup "setdash" = some .setdash := by decide
@[simp] theorem table_setlinejoin : table.lookup "setlinejoin" = some .setlinejoin := by decide
@[simp] theorem table_translate : table.lookup "translate" = some .translate := by decide
@[simp] theorem table_scale : table.lookup "scale" = some .scale := by decide
@[simp] theorem table_lbracket : table.lookup "[" = some .lbracket := by decide
@[simp] theorem table_rbracket : table.lookup "]" = some .rbracket := by decide
@[simp] theorem table_dup : table.lookup "dup" = some .dup := by decide
@[simp] theorem table_pop : table.lookup "pop" = some .pop := by decide
@[simp] theorem table_exch : table.lookup "exch" = some .exch := by decide
@[simp] theorem table_roll : table.lookup "roll" = some .roll := by decide
@[simp] theorem table_sub : table.lookup "sub" = some .sub := by decide
@[simp] theorem table_neg : table.lookup "neg" = some .neg := by decide
@[simp] theorem table_div : table.lookup "div" = some .div := by decide
@[simp] theorem table_pushFalse : table.lookup "false" = some .pushFalse := by decide
@[simp] theorem table_findfont : table.lookup "findfont" = some .findfont := by decide
@[simp] theorem table_scalefont : table.lookup "scalefont" = some .scalefont := by decide
@[simp] theorem table_setfont : table.lookup "setfont" = some .setfont := by decide
@[simp] theorem table_charpath : table.lookup "charpath" = some .charpath := by decide
@[simp] theorem table_flattenpath : table.lookup "flattenpath" = some .flattenpath := by decide
@[simp] theorem table_pathbbox : table.lookup "pathbbox" = some .pathbbox := by decide
@[simp] theorem table_showText : table.lookup "show" = some .showText := by decide
@[simp] theorem table_image : table.lookup "image" = some .image := by decide
@[simp] theorem table_colorimage : table.lookup "colorimage" = some .colorimage := by decide

/-- In this dictionary every word of the table means its operator. -/
def Std (d : List (String × List (Obj K))) : Prop :=
  ∀ s op, table.lookup s = some op → op ≠ .define ∧
    ((d.lookup s = none ∧ Op.ofName s = some op) ∨
     ∃ t, d.lookup s = some [.name t] ∧ d.lookup t = none ∧ Op.ofName t = some op)

/-- Running code that has only words of the table. -/
def runOps (env : Env K) : List (Obj K) → St K → Option (St K)
  | [], σ => some σ
  | o :: code, σ =>
    match o with
    | .name s =>
      match table.lookup s with
      | none => none
      | some op => (operator env op σ).bind (runOps env code)
    | o => runOps env code { σ with stack := o :: σ.stack }

variable {env : Env K}

theorem runOps_append (a b : List (Obj K)) (σ : St K) : runOps env (a ++ b) σ = (runOps env a σ).bind (runOps env b) := by
  induction a generalizing σ with
  | nil => rfl
  | cons o a ih =>
    cases o with
    | name s =>
      simp only [List.cons_append, runOps]
      cases table.lookup s with
      | none => rfl
      | some op =>
        simp only
        cases operator env op σ with
        | none => rfl
        | some τ => exact ih τ
    | _ => simp only [List.cons_append, runOps]; exact ih _

theorem runOps_exec {a : List (Obj K)} {σ τ : St K} (hd : Std σ.dict) (h : runOps env a σ = some τ) :
    Exec env a σ τ ∧ τ.dict = σ.dict := by
  induction a generalizing σ with
  | nil =>
    injection h with h
    subst h
    exact ⟨.nil _, rfl⟩
  | cons o a ih =>
    cases o with
    | name s =>
      simp only [runOps] at h
      cases hs : table.lookup s with
      | none => rw [hs] at h; cases h
      | some op =>
        rw [hs] at h
        simp only at h
        obtain ⟨ρ, hρ, h⟩ := Option.bind_eq_some_iff.mp h
        obtain ⟨hop, hcase⟩ := hd s op hs
        have hdict := operator_dict hρ hop
        obtain ⟨he, hd'⟩ := ih (by rw [hdict]; exact hd) h
        refine ⟨?_, by rw [hd', hdict]⟩
        rcases hcase with ⟨h1, h2⟩ | ⟨t, h1, h2, h3⟩
        · refine .cons (body := []) (σ1 := ρ) ?_ he
          simp [act, h1, h2, hρ]
        · refine .cons (body := [.name t]) (σ1 := σ) (by simp [act, h1]) ?_
          refine .cons (body := []) (σ1 := ρ) ?_ he
          simp [act, h2, h3, hρ]
    | _ =>
      simp only [runOps] at h
      obtain ⟨he, hd'⟩ := ih (σ := { σ with stack := _ :: σ.stack }) hd h
      exact ⟨.cons (body := []) (by rw [act]; simp) he, hd'⟩

/-! ### What a call appends -/

/-- `c'` is `c` with the lines `L` appended; ink caches, box and dependencies may differ. -/
structure Emit (c c' : Canvas K) (L : List (Line K)) : Prop where
  lines : c'.lines = c.lines ++ L
  bg : c'.bgcolor = c.bgcolor
  width : c'.state.width = c.state.width
  dash : c'.state.dash = c.state.dash

theorem Emit.refl (c : Canvas K) : Emit c c [] := ⟨by simp, rfl, rfl, rfl⟩

theorem Emit.trans {a b c : Canvas K} {L M : List (Line K)} (h1 : Emit a b L) (h2 : Emit b c M) : Emit a c (L ++ M) :=
  ⟨by rw [h2.lines, h1.lines, List.append_assoc], by rw [h2.bg, h1.bg], by rw [h2.width, h1.width], by rw [h2.dash, h1.dash]⟩

theorem Emit.emit (c : Canvas K) (l : Line K) : Emit c (c.emit l) [l] := ⟨rfl, rfl, rfl, rfl⟩

@[simp] theorem emit_state (c : Canvas K) (l : Line K) : (c.emit l).state = c.state := rfl
@[simp] theorem emit_deps (c : Canvas K) (l : Line K) : (c.emit l).deps = c.deps := rfl
@[simp] theorem emit_bbox (c : Canvas K) (l : Line K) : (c.emit l).bbox = c.bbox := rfl

/-- The cache of this mode holds this colour. -/
def Cached : Mode → State K → K × K × K → Prop
  | .rgb, st, col => st.color = [col.1, col.2.1, col.2.2]
  | .gray, st, col => st.gray = some col.1 ∧ col = (col.1, col.1, col.1)

def withInk (σ : St K) (i : K × K × K) : St K := { σ with gs := { σ.gs with ink := i } }

theorem Cached.congr {mode : Mode} {s s' : State K} {col : K × K × K} (h : Cached mode s col) (h1 : s'.color = s.color)
    (h2 : s'.gray = s.gray) : Cached mode s' col := by
  cases mode
  · exact h1.trans h
  · exact ⟨h2.trans h.1, h.2⟩

theorem setink_spec {c c' : Canvas K} {ink : Ink K} (h : c.setink ink = .ok c') :
    ∃ L objs, ∃ new : K × K × K → K × K × K, Emit c c' L ∧ c'.deps = c.deps ∧ c'.bbox = c.bbox ∧ Parses L.flatten objs ∧
      (∀ σ : St K, runOps env objs σ = some (withInk σ (new σ.gs.ink))) ∧
      ∀ mode col, InMode mode ink → Cached mode c.state col →
        ∃ k, colour ink = some k ∧ Cached mode c'.state k ∧ ∀ i, (k = col → i = col) → new i = k := by
  match ink, h with
  | .tuple [r, g, b], h =>
    simp only [Canvas.setink, Except.ok.injEq] at h
    rw [Canvas.setcolor] at h
    split at h
    · rename_i hc
      subst h
      refine ⟨[], [], id, .refl _, rfl, rfl, .nil, fun σ => rfl, ?_⟩
      intro mode col hm hcol
      cases mode with
      | gray => exact hm.elim
      | rgb =>
        refine ⟨(r, g, b), rfl, hc, ?_⟩
        rintro i hi
        have : (r, g, b) = col := by
          rw [Cached, hc] at hcol
          simp only [List.cons.injEq, and_true] at hcol
          obtain ⟨h1, h2, h3⟩ := hcol
          rw [h1, h2, h3]
        rw [id, hi this, this]
    · subst h
      refine ⟨[[.num r, .num g, .num b, .word "rgb"]], [.num r, .num g, .num b, .name "rgb"], fun _ => (r, g, b),
        ⟨rfl, rfl, rfl, rfl⟩, rfl, rfl, .flat rfl, ?_, ?_⟩
      · intro σ; simp [runOps, operator, withInk]
      · intro mode col hm hcol
        cases mode with
        | gray => exact hm.elim
        | rgb => exact ⟨(r, g, b), rfl, rfl, fun _ _ => rfl⟩
  | .num v, h =>
    simp only [Canvas.setink, Except.ok.injEq] at h
    rw [Canvas.setgray] at h
    split at h
    · rename_i hc
      subst h
      refine ⟨[], [], id, .refl _, rfl, rfl, .nil, fun σ => rfl, ?_⟩
      intro mode col hm hcol
      cases mode with
      | rgb => exact hm.elim
      | gray =>
        refine ⟨(v, v, v), rfl, ⟨hc, rfl⟩, ?_⟩
        rintro i hi
        have : (v, v, v) = col := by
          obtain ⟨h1, h2⟩ := hcol
          rw [hc, Option.some.injEq] at h1
          rw [h2, h1]
        rw [id, hi this, this]
    · subst h
      refine ⟨[[.num v, .word "v"]], [.num v, .name "v"], fun _ => (v, v, v), ⟨rfl, rfl, rfl, rfl⟩, rfl, rfl, .flat rfl, ?_, ?_⟩
      · intro σ; simp [runOps, operator, withInk]
      · intro mode col hm hcol
        cases mode with
        | rgb => exact hm.elim
        | gray => exact ⟨(v, v, v), rfl, ⟨rfl, rfl⟩, fun _ _ => rfl⟩
  | .tuple [], h => cases h
  | .tuple [_], h => cases h
  | .tuple [_, _], h => cases h
  | .tuple (_ :: _ :: _ :: _ :: _), h => cases h
  | .other, h => cases h

/-- The pen has the width, dash pattern and path of the machine. -/
structure PenOf (pen : Pen K) (g : GState K) : Prop where
  width : g.width = pen.width
  dash : g.dash = pen.dash
  path : g.path = pen.path

/-- The same machine apart from ink, path and page. -/
structure SameRest (σ τ : St K) : Prop where
  stack : τ.stack = σ.stack
  saved : τ.saved = σ.saved
  dict : τ.dict = σ.dict
  ctm : τ.gs.ctm = σ.gs.ctm

theorem paint_spec {c c' : Canvas K} {fill stroke : Option (Ink K)} (h : c.paint fill stroke = .ok c') :
    ∃ L objs, Emit c c' L ∧ c'.deps = c.deps ∧ c'.bbox = c.bbox ∧ Parses L.flatten objs ∧
      ∀ (pen : Pen K) (σ : St K), σ.gs.width = pen.width → σ.gs.dash = pen.dash →
        ∃ τ Q, runOps env objs σ = some τ ∧ SameRest σ τ ∧ PenOf (pen.shape σ.gs.path fill stroke).1 τ.gs ∧
          τ.page = σ.page ++ Q ∧ Q.map noInk = (pen.shape σ.gs.path fill stroke).2.map noInk ∧
          ∀ mode, (∀ i, fill = some i → InMode mode i) → (∀ i, stroke = some i → InMode mode i) → (fill = stroke → fill = none) →
            Cached mode c.state pen.ink → σ.gs.ink = pen.ink →
            Q = (pen.shape σ.gs.path fill stroke).2 ∧ τ.gs.ink = (pen.shape σ.gs.path fill stroke).1.ink ∧
            Cached mode c'.state τ.gs.ink := by
  match fill, stroke with
  | none, none =>
    simp only [Canvas.paint, bind, Except.bind, pure, Except.pure, Except.ok.injEq] at h
    subst h
    refine ⟨[], [], .refl _, rfl, rfl, .nil, ?_⟩
    intro pen σ hw hd
    refine ⟨σ, [], rfl, ⟨rfl, rfl, rfl, rfl⟩, ⟨hw, hd, rfl⟩, by simp, rfl, ?_⟩
    intro mode _ _ _ hcol hink
    exact ⟨rfl, hink, by rw [hink]; exact hcol⟩
  | some f, none =>
    simp only [Canvas.paint, bind, Except.bind, pure, Except.pure, Option.isSome_none, Bool.false_eq_true, if_false] at h
    cases hf : c.setink f with
    | error e => rw [hf] at h; cases h
    | ok c1 =>
      rw [hf] at h
      simp only [Except.ok.injEq] at h
      subst h
      obtain ⟨L, objs, new, he, hdp, hbb, hp, hr, hm⟩ := setink_spec (env := env) hf
      refine ⟨L ++ [[.word "f"]], objs ++ [.name "f"], he.trans (.emit _ _), hdp, hbb, ?_, ?_⟩
      · rw [List.flatten_append]; exact hp.append (.flat rfl)
      · intro pen σ hw hd
        refine ⟨{ withInk σ (new σ.gs.ink) with
          gs := { (withInk σ (new σ.gs.ink)).gs with path := [] }
          page := σ.page ++ [.fill σ.gs.path (new σ.gs.ink)] }, [.fill σ.gs.path (new σ.gs.ink)], ?_, ⟨rfl, rfl, rfl, rfl⟩,
          ⟨hw, hd, rfl⟩, rfl, rfl, ?_⟩
        · rw [runOps_append, hr]
          simp [runOps, operator, withInk]
        · intro mode h1 _ _ hcol hink
          obtain ⟨k, e, hc', hk⟩ := hm mode pen.ink (h1 f rfl) hcol
          have := hk σ.gs.ink (fun _ => hink)
          simp only [Pen.shape, e, Option.getD_some]
          rw [this]
          exact ⟨rfl, rfl, hc'⟩
  | none, some s =>
    simp only [Canvas.paint, bind, Except.bind, pure, Except.pure, Option.isSome_none, Bool.false_eq_true, if_false] at h
    cases hf : c.setink s with
    | error e => rw [hf] at h; cases h
    | ok c1 =>
      rw [hf] at h
      simp only [Except.ok.injEq] at h
      subst h
      obtain ⟨L, objs, new, he, hdp, hbb, hp, hr, hm⟩ := setink_spec (env := env) hf
      refine ⟨L ++ [[.word "s"]], objs ++ [.name "s"], he.trans (.emit _ _), hdp, hbb, ?_, ?_⟩
      · rw [List.flatten_append]; exact hp.append (.flat rfl)
      · intro pen σ hw hd
        refine ⟨{ withInk σ (new σ.gs.ink) with
          gs := { (withInk σ (new σ.gs.ink)).gs with path := [] }
          page := σ.page ++ [.stroke σ.gs.path (new σ.gs.ink) σ.gs.width σ.gs.dash] },
          [.stroke σ.gs.path (new σ.gs.ink) σ.gs.width σ.gs.dash], ?_, ⟨rfl, rfl, rfl, rfl⟩,
          ⟨hw, hd, rfl⟩, rfl, ?_, ?_⟩
        · rw [runOps_append, hr]
          simp [runOps, operator, withInk]
        · simp [Pen.shape, noInk, hw, hd]
        · intro mode _ h1 _ hcol hink
          obtain ⟨k, e, hc', hk⟩ := hm mode pen.ink (h1 s rfl) hcol
          have := hk σ.gs.ink (fun _ => hink)
          simp only [Pen.shape, e, Option.getD_some]
          rw [this]
          exact ⟨by rw [hw, hd], rfl, hc'⟩
  | some f, some s =>
    simp only [Canvas.paint, bind, Except.bind, pure, Except.pure, Option.isSome_some, if_true] at h
    cases hf : (c.emit [.word "gs"]).setink f with
    | error e => rw [hf] at h; cases h
    | ok c1 =>
      rw [hf] at h
      simp only at h
      cases hs : ((c1.emit [.word "f"]).emit [.word "gr"]).setink s with
      | error e => rw [hs] at h; cases h
      | ok c2 =>
        rw [hs] at h
        simp only [Except.ok.injEq] at h
        subst h
        obtain ⟨L, objs, new, he, hdp, hbb, hp, hr, hm⟩ := setink_spec (env := env) hf
        obtain ⟨L', objs', new', he', hdp', hbb', hp', hr', hm'⟩ := setink_spec (env := env) hs
        refine ⟨[[.word "gs"]] ++ L ++ [[.word "f"]] ++ [[.word "gr"]] ++ L' ++ [[.word "s"]],
          [.name "gs"] ++ objs ++ [.name "f"] ++ [.name "gr"] ++ objs' ++ [.name "s"],
          (((((Emit.emit _ _).trans he).trans (.emit _ _)).trans (.emit _ _)).trans he').trans (.emit _ _),
          hdp'.trans hdp, hbb'.trans hbb, ?_, ?_⟩
        · simp only [List.flatten_append]
          exact (((((Parses.flat rfl).append hp).append (.flat rfl)).append (.flat rfl)).append hp').append (.flat rfl)
        · intro pen σ hw hd
          refine ⟨{ withInk σ (new' σ.gs.ink) with
            gs := { (withInk σ (new' σ.gs.ink)).gs with path := [] }
            page := σ.page ++ [.fill σ.gs.path (new σ.gs.ink), .stroke σ.gs.path (new' σ.gs.ink) σ.gs.width σ.gs.dash] },
            [.fill σ.gs.path (new σ.gs.ink), .stroke σ.gs.path (new' σ.gs.ink) σ.gs.width σ.gs.dash], ?_, ⟨rfl, rfl, rfl, rfl⟩,
            ⟨hw, hd, rfl⟩, rfl, ?_, ?_⟩
          · simp only [runOps_append, hr, hr', runOps, operator, withInk, table_gs, table_gr, table_f, table_s, Option.bind_some,
              List.append_assoc, List.cons_append, List.nil_append]
          · simp [Pen.shape, noInk, hw, hd]
          · intro mode h1 h2 h3 hcol hink
            obtain ⟨k, e, hc', hk⟩ := hm mode pen.ink (h1 f rfl) hcol
            obtain ⟨k', e', hc'', hk'⟩ := hm' mode k (h2 s rfl) hc'
            have h4 := hk σ.gs.ink (fun _ => hink)
            have hne : k' ≠ k := by
              rintro rfl
              have : f = s := by
                have hf := h1 f rfl
                have hs := h2 s rfl
                cases mode with
                | rgb =>
                  match f, s, hf, hs, e, e' with
                  | .tuple [a, b, d], .tuple [a', b', d'], _, _, e, e' =>
                    simp only [colour, Option.some.injEq] at e e'
                    rw [← e'] at e
                    simp only [Prod.mk.injEq] at e
                    obtain ⟨rfl, rfl, rfl⟩ := e
                    rfl
                | gray =>
                  match f, s, hf, hs, e, e' with
                  | .num v, .num v', _, _, e, e' =>
                    simp only [colour, Option.some.injEq] at e e'
                    rw [← e'] at e
                    simp only [Prod.mk.injEq] at e
                    rw [e.1]
              have := h3 (by rw [this])
              cases this
            have h5 := hk' σ.gs.ink (fun h => absurd h hne)
            simp only [Pen.shape, e, e', Option.getD_some]
            rw [h4, h5]
            exact ⟨by rw [hw, hd], rfl, hc''⟩

/-! ### Paths -/

def withPath (σ : St K) (p : List (Seg K)) : St K := { σ with gs := { σ.gs with path := p } }

theorem lineLoop_spec (c : Canvas K) (b : BBox K) (ps : List (K × K)) :
    ∃ L objs, Emit c (c.lineLoop b ps).1 L ∧ (c.lineLoop b ps).1.deps = c.deps ∧ (c.lineLoop b ps).1.bbox = c.bbox ∧
      (c.lineLoop b ps).1.state = c.state ∧
      (c.lineLoop b ps).2 = ps.foldl BBox.absorb b ∧ Parses L.flatten objs ∧
      ∀ σ : St K, σ.gs.path ≠ [] → runOps env objs σ =
        some (withPath σ (σ.gs.path ++ ps.map (fun q => .line (σ.gs.ctm.apply q.1 q.2)))) := by
  induction ps generalizing c b with
  | nil => exact ⟨[], [], .refl _, rfl, rfl, rfl, rfl, .nil, fun σ _ => by simp [runOps, withPath]⟩
  | cons p ps ih =>
    obtain ⟨L, objs, h1, h2, h3, h3', h4, h5, h6⟩ := ih (c.emit [.num p.1, .num p.2, .word "l"]) (b.absorb p)
    refine ⟨[[.num p.1, .num p.2, .word "l"]] ++ L, [.num p.1, .num p.2, .name "l"] ++ objs, (Emit.emit _ _).trans h1, h2, h3, h3', h4,
      ?_, ?_⟩
    · rw [List.flatten_append]; exact (Parses.flat rfl).append h5
    · intro σ hσ
      rw [runOps_append]
      have : runOps env [.num p.1, .num p.2, .name "l"] σ = some (withPath σ (σ.gs.path ++ [.line (σ.gs.ctm.apply p.1 p.2)])) := by
        simp [runOps, operator, hσ, withPath]
      rw [this, Option.bind_some, h6 _ (by simp [withPath])]
      simp [withPath]

theorem arctoLoop_spec (c : Canvas K) (radius : K) (l : List ((K × K) × (K × K))) :
    ∃ L objs, Emit c (c.arctoLoop radius l) L ∧ (c.arctoLoop radius l).deps = c.deps ∧ (c.arctoLoop radius l).bbox = c.bbox ∧
      (c.arctoLoop radius l).state = c.state ∧
      Parses L.flatten objs ∧
      ∀ σ : St K, σ.gs.path ≠ [] → ∃ st, runOps env objs σ =
        some { withPath σ (σ.gs.path ++ l.map (fun pq => .arcto (σ.gs.ctm.apply pq.1.1 pq.1.2) (σ.gs.ctm.apply pq.2.1 pq.2.2)
          (σ.gs.ctm.sx * radius, σ.gs.ctm.sy * radius))) with stack := st } ∧ st.length = σ.stack.length + 4 * l.length := by
  induction l generalizing c with
  | nil => exact ⟨[], [], .refl _, rfl, rfl, rfl, .nil, fun σ _ => ⟨σ.stack, by simp [runOps, withPath], by simp⟩⟩
  | cons p ps ih =>
    obtain ⟨p, q⟩ := p
    obtain ⟨L, objs, h1, h2, h3, h3', h5, h6⟩ := ih (c.emit [.num p.1, .num p.2, .num q.1, .num q.2, .num radius, .word "arcto"])
    refine ⟨[[.num p.1, .num p.2, .num q.1, .num q.2, .num radius, .word "arcto"]] ++ L,
      [.num p.1, .num p.2, .num q.1, .num q.2, .num radius, .name "arcto"] ++ objs, (Emit.emit _ _).trans h1, h2, h3, h3', ?_, ?_⟩
    · rw [List.flatten_append]; exact (Parses.flat rfl).append h5
    · intro σ hσ
      rw [runOps_append]
      have : ∃ st, runOps env [.num p.1, .num p.2, .num q.1, .num q.2, .num radius, .name "arcto"] σ =
          some { withPath σ (σ.gs.path ++ [.arcto (σ.gs.ctm.apply p.1 p.2) (σ.gs.ctm.apply q.1 q.2)
            (σ.gs.ctm.sx * radius, σ.gs.ctm.sy * radius)]) with stack := st } ∧ st.length = σ.stack.length + 4 :=
        ⟨_, by simp [runOps, operator, hσ, withPath]; rfl, by simp⟩
      obtain ⟨st, this, hlen⟩ := this
      rw [this, Option.bind_some]
      obtain ⟨st', h7, hlen'⟩ := h6 { withPath σ (σ.gs.path ++ [.arcto (σ.gs.ctm.apply p.1 p.2) (σ.gs.ctm.apply q.1 q.2)
            (σ.gs.ctm.sx * radius, σ.gs.ctm.sy * radius)]) with stack := st } (by simp [withPath])
      refine ⟨st', ?_, ?_⟩
      · rw [h7]
        simp [withPath]
      · simp only [hlen] at hlen'
        rw [hlen', List.length_cons]; omega

/-! ### Images -/

theorem hexDigit_hexChar (n : Nat) (h : n < 16) : hexDigit (Canvas.hexChar n) = some n := by
  revert h
  revert n
  decide

theorem hexBytes_hex02 (l : List Nat) (h : ∀ b ∈ l, b < 256) : hexBytes (l.flatMap Canvas.hex02) = some l := by
  induction l with
  | nil => rfl
  | cons b l ih =>
    have hb := h b (by simp)
    simp only [List.flatMap_cons, Canvas.hex02, List.cons_append, List.nil_append, hexBytes]
    rw [hexDigit_hexChar _ (by omega), hexDigit_hexChar _ (by omega), ih (fun x hx => h x (by simp [hx]))]
    simp only [Option.bind_eq_bind, Option.bind_some, Option.pure_def, Option.some.injEq, List.cons.injEq, and_true]
    omega

theorem lex_hex (ws : List String) (rest : List (Tok K)) (acc : List Char) (b : List Nat) (hw : ∀ w ∈ ws, w ≠ ">")
    (hb : hexBytes (acc ++ (ws.map String.toList).flatten) = some b) :
    lex (some acc) (ws.map Tok.word ++ .word ">" :: rest) = (lex none rest).map (.obj (.bytes b) :: ·) := by
  induction ws generalizing acc with
  | nil =>
    simp only [List.map_nil, List.flatten_nil, List.append_nil] at hb
    rw [List.map_nil, List.nil_append, lex, if_pos rfl, hb]
  | cons w ws ih =>
    rw [List.map_cons, List.cons_append, lex, if_neg (hw w (by simp))]
    refine ih _ (fun w hw' => hw w (by simp [hw'])) ?_
    rw [← hb]
    simp

theorem Parses.image (ws : List String) (b : List Nat) (hw : ∀ w ∈ ws, w ≠ ">")
    (hb : hexBytes (ws.map String.toList).flatten = some b) :
    Parses ([.lbrace, .word "<"] ++ ws.map Tok.word ++ [.word ">", .rbrace]) [(.proc [.bytes b] : Obj K)] := by
  rw [parses_iff, parse]
  have : lex none ([.lbrace, .word "<"] ++ ws.map Tok.word ++ [.word ">", .rbrace] : List (Tok K)) =
      some [.lbrace, .obj (.bytes b), .rbrace] := by
    rw [List.append_assoc, List.cons_append, List.cons_append, List.nil_append, lex, lex, if_pos rfl]
    rw [lex_hex ws [.rbrace] [] b hw hb]
    simp [lex]
  rw [this]
  simp [group]

theorem hexLoop_spec (c : Canvas K) (data : List Nat) (cw n a : Nat) (h : a + n * cw ≤ data.length) (hd : ∀ b ∈ data, b < 256) :
    ∃ ws : List String, Emit c (c.hexLoop data cw n a) (ws.map (fun w => [.word w])) ∧ (c.hexLoop data cw n a).deps = c.deps ∧
      (c.hexLoop data cw n a).bbox = c.bbox ∧ (c.hexLoop data cw n a).state = c.state ∧ (∀ w ∈ ws, w ≠ ">") ∧ ws.length = n ∧
      hexBytes (ws.map String.toList).flatten = some ((data.drop a).take (n * cw)) := by
  induction n generalizing c a with
  | zero => exact ⟨[], .refl _, rfl, rfl, rfl, by simp, rfl, by simp [hexBytes]⟩
  | succ n ih =>
    have hs : (n + 1) * cw = n * cw + cw := by ring
    obtain ⟨ws, h1, h2, h3, h4, h5, h6, h7⟩ := ih
      (c.emit [.word (String.ofList (((data.take (a + cw)).drop a).flatMap Canvas.hex02))]) (a + cw) (by omega)
    refine ⟨String.ofList (((data.take (a + cw)).drop a).flatMap Canvas.hex02) :: ws, ?_, h2, h3, h4, ?_, by simp [h6], ?_⟩
    · have := (Emit.emit c [.word (String.ofList (((data.take (a + cw)).drop a).flatMap Canvas.hex02))]).trans h1
      exact this
    · intro w hw
      rcases List.mem_cons.mp hw with rfl | hw
      · intro hc
        have := congrArg String.toList hc
        rw [String.toList_ofList] at this
        have hm : '>' ∈ ((data.take (a + cw)).drop a).flatMap Canvas.hex02 := by rw [this]; decide
        obtain ⟨b, hb0, hm⟩ := List.mem_flatMap.mp hm
        have hb : b < 256 := hd b (List.mem_of_mem_take (List.mem_of_mem_drop hb0))
        clear hb0 this hc hw
        revert hm
        revert hb
        revert b
        decide +kernel
      · exact h5 w hw
    · have hx : ∀ (l : List Nat) (cs : List Char) (m : List Nat), (∀ b ∈ l, b < 256) → hexBytes cs = some m →
          hexBytes (l.flatMap Canvas.hex02 ++ cs) = some (l ++ m) := by
        intro l cs m hl hc
        induction l with
        | nil => simpa using hc
        | cons b l ih =>
          have hb := hl b (by simp)
          simp only [List.flatMap_cons, Canvas.hex02, List.cons_append, List.nil_append, hexBytes]
          have ih' := ih (fun x hx => hl x (by simp [hx]))
          rw [hexDigit_hexChar _ (by omega), hexDigit_hexChar _ (by omega), ih']
          simp only [Option.bind_eq_bind, Option.bind_some, Option.pure_def, Option.some.injEq, List.cons.injEq, and_true]
          omega
      rw [List.map_cons, List.flatten_cons, String.toList_ofList, hx _ _ _ _ h7]
      · congr 1
        rw [List.drop_take, hs, Nat.add_comm (n * cw), List.take_add, List.drop_drop]
        congr 2
        omega
      · intro b hb
        exact hd b (List.mem_of_mem_take (List.mem_of_mem_drop hb))

/-! ### Texts -/

/-- The body of `sz` in `defs.ps`. -/
def szBody : List (Obj K) :=
  [.name "findfont", .name "exch", .name "scalefont", .name "setfont", .name "gs", .name "dup", .name "false", .name "charpath",
   .name "flattenpath", .name "pathbbox", .name "gr", .num 3, .num (-1), .name "roll", .name "sub", .num 3, .num 1, .name "roll",
   .name "sub", .name "neg"]

/-- The bodies of the other procedures, after `m sz`. -/
def textTail : List (String × List (Obj K)) :=
  [("sc", [.num (-2), .name "div", .name "exch", .num (-2), .name "div", .name "rm", .name "show"]),
   ("st", [.num (-2), .name "div", .name "exch", .name "neg", .name "rm", .name "show"]),
   ("str", [.name "neg", .name "exch", .name "neg", .name "rm", .name "show"]),
   ("sr", [.name "neg", .name "exch", .num (-2), .name "div", .name "rm", .name "show"]),
   ("sbr", [.name "neg", .name "exch", .name "pop", .num 0, .name "rm", .name "show"]),
   ("sb", [.num (-2), .name "div", .name "exch", .name "pop", .num 0, .name "rm", .name "show"]),
   ("sbl", [.name "pop", .num 0, .name "exch", .name "pop", .num 0, .name "rm", .name "show"]),
   ("sl", [.name "pop", .num 0, .name "exch", .num (-2), .name "div", .name "rm", .name "show"]),
   ("stl", [.name "pop", .num 0, .name "exch", .name "neg", .name "rm", .name "show"])]

/-- The procedures of `defs.ps` for the names in `deps`. -/
def TextDefs (deps : List String) (d : List (String × List (Obj K))) : Prop :=
  ("sz" ∈ deps → d.lookup "sz" = some szBody) ∧
  ∀ k tail, textTail.lookup k = some tail → k ∈ deps → d.lookup k = some (.name "m" :: .name "sz" :: tail)

variable [IsStrictOrderedRing K]

theorem sz_run (σ : St K) (t : List Char) (font : String) (size : K) (st : List (Obj K)) (p : K × K)
    (hst : σ.stack = .lit font :: .num size :: .str t :: st) (hp : current σ.gs.path = some p) :
    ∃ b, b = env.box σ.gs.ctm (σ.gs.path ++ [.chars p t font size]) ∧ runOps env szBody σ =
      some { σ with stack := .num (b.2.2.1 - b.1) :: .num (b.2.2.2 - b.2.1) :: .str t :: st,
                    gs := { σ.gs with font := some (font, size) } } := by
  refine ⟨_, rfl, ?_⟩
  have h1 : ¬ ((-1 : K) = 1) := by
    intro h
    have : (-1 : K) < 1 := neg_one_lt_zero.trans zero_lt_one
    exact absurd h this.ne
  simp [runOps, szBody, operator, hst, hp, h1]

theorem tail_run (σ : St K) (t : List Char) (font : String) (size : K) (st : List (Obj K)) (p : K × K) (dx dy : K)
    (hst : σ.stack = .num dx :: .num dy :: .str t :: st) (hp : current σ.gs.path = some p) (hf : σ.gs.font = some (font, size))
    (anchor : String) (ha : anchor ∈ ["c", "t", "tr", "r", "br", "b", "bl", "l", "tl"]) :
    ∃ tail, textTail.lookup ("s" ++ anchor) = some tail ∧ runOps env tail σ =
      some { σ with
        stack := st
        gs := { σ.gs with path := σ.gs.path ++ [
          .move (p.1 + σ.gs.ctm.sx * (anchorOffset anchor dx dy).1, p.2 + σ.gs.ctm.sy * (anchorOffset anchor dx dy).2),
          .move (p.1 + σ.gs.ctm.sx * (anchorOffset anchor dx dy).1 + σ.gs.ctm.sx * (env.advance t font size).1,
            p.2 + σ.gs.ctm.sy * (anchorOffset anchor dx dy).2 + σ.gs.ctm.sy * (env.advance t font size).2)] }
        page := σ.page ++ [.text t font size
          (p.1 + σ.gs.ctm.sx * (anchorOffset anchor dx dy).1, p.2 + σ.gs.ctm.sy * (anchorOffset anchor dx dy).2) σ.gs.ctm σ.gs.ink] } := by
  have hlast : ∀ (l : List (Seg K)) (q : K × K), current (l ++ [.move q]) = some q := by intro l q; simp [current]
  simp only [List.mem_cons, List.not_mem_nil, or_false] at ha
  rcases ha with rfl | rfl | rfl | rfl | rfl | rfl | rfl | rfl | rfl <;>
    refine ⟨_, rfl, ?_⟩ <;>
    simp [runOps, operator, hst, hp, hf, hlast, anchorOffset, div_neg, neg_div]

/-! ### One call -/

/-- Canvas, pen and machine agree on everything but the ink. -/
structure Match (m : CTM K) (heap : Nat → List K) (c : Canvas K) (pen : Pen K) (σ : St K) : Prop where
  ctm : σ.gs.ctm = m
  width : c.state.width = pen.width
  dash1 : heap c.state.dash.1 = pen.dash.1
  dash2 : c.state.dash.2 = pen.dash.2
  pen : PenOf pen σ.gs

/-- The canvas went from `c` to `c'` and appended code that does to the machine what `call` does to the pen. -/
def Sim (env : Env K) (m : CTM K) (heap : Nat → List K) (D : List String) (c c' : Canvas K) (call : Call K) : Prop :=
  ∃ L objs, c'.lines = c.lines ++ L ∧ c'.bgcolor = c.bgcolor ∧ Parses L.flatten objs ∧
    ∀ (pen : Pen K) (σ : St K), Std σ.dict → TextDefs D σ.dict → Match m heap c pen σ →
      ∃ τ Q, Exec env objs σ τ ∧ (τ.dict = σ.dict ∧ τ.stack.length = σ.stack.length + spill call) ∧ Match m heap c' (pen.call env m heap call).1 τ ∧
        τ.page = σ.page ++ Q ∧ Q.map noInk = (pen.call env m heap call).2.map noInk ∧
        ∀ mode, InksOk mode call → Cached mode c.state pen.ink → σ.gs.ink = pen.ink →
          Q = (pen.call env m heap call).2 ∧ τ.gs.ink = (pen.call env m heap call).1.ink ∧
          Cached mode c'.state τ.gs.ink

theorem shape_sim {m : CTM K} {heap : Nat → List K} {D : List String} {call : Call K} {fill stroke : Option (Ink K)}
    {c c1 c2 c' : Canvas K} {newpath : List (Seg K) → List (Seg K)} {L : List (Line K)} {objs : List (Obj K)}
    (he : Emit c c1 L) (hst : c1.state = c.state) (hp : Parses L.flatten objs)
    (hr : ∀ σ : St K, σ.gs.ctm = m → ∃ st, runOps env objs σ = some { withPath σ (newpath σ.gs.path) with stack := st } ∧
      st.length = σ.stack.length + spill call)
    (hpaint : c1.paint fill stroke = .ok c2) (hl : c'.lines = c2.lines) (hb : c'.bgcolor = c2.bgcolor) (hs : c'.state = c2.state)
    (hcall : ∀ pen : Pen K, pen.call env m heap call = pen.shape (newpath pen.path) fill stroke)
    (hinks : ∀ mode, InksOk mode call → (∀ i, fill = some i → InMode mode i) ∧ (∀ i, stroke = some i → InMode mode i) ∧
      (fill = stroke → fill = none)) :
    Sim env m heap D c c' call := by
  obtain ⟨L2, objs2, he2, _, _, hp2, hr2⟩ := paint_spec (env := env) hpaint
  have he12 := he.trans he2
  refine ⟨L ++ L2, objs ++ objs2, by rw [hl, he12.lines], by rw [hb, he12.bg], ?_, ?_⟩
  · rw [List.flatten_append]; exact hp.append hp2
  · intro pen σ hstd _ hm
    obtain ⟨st, h1, hlen⟩ := hr σ hm.ctm
    obtain ⟨τ, Q, h2, h3, h4, h5, h6, h7⟩ := hr2 pen { withPath σ (newpath σ.gs.path) with stack := st } hm.pen.width hm.pen.dash
    have hrun : runOps env (objs ++ objs2) σ = some τ := by rw [runOps_append, h1, Option.bind_some, h2]
    have hpath : ({ withPath σ (newpath σ.gs.path) with stack := st } : St K).gs.path = newpath pen.path := by
      show newpath σ.gs.path = newpath pen.path
      rw [hm.pen.path]
    rw [hpath] at h4 h6 h7
    refine ⟨τ, Q, (runOps_exec hstd hrun).1, ⟨(runOps_exec hstd hrun).2, by rw [h3.stack]; exact hlen⟩, ?_, h5, ?_, ?_⟩
    · have hwd : (pen.shape (newpath pen.path) fill stroke).1.width = pen.width ∧
          (pen.shape (newpath pen.path) fill stroke).1.dash = pen.dash := by
        unfold Pen.shape; split <;> exact ⟨rfl, rfl⟩
      refine ⟨by rw [h3.ctm]; exact hm.ctm, ?_, ?_, ?_, by rw [hcall]; exact h4⟩
      · rw [hs, he12.width, hm.width, hcall, hwd.1]
      · rw [hs, he12.dash, hm.dash1, hcall, hwd.2]
      · rw [hs, he12.dash, hm.dash2, hcall, hwd.2]
    · rw [hcall]; exact h6
    · intro mode hi hcol hink
      obtain ⟨i1, i2, i3⟩ := hinks mode hi
      have := h7 mode i1 i2 i3 (by rw [hst]; exact hcol) hink
      rw [hcall, hs]
      exact this

/-- A call that draws nothing and changes only the ink. -/
theorem setink_sim {m : CTM K} {heap : Nat → List K} {D : List String} {call : Call K} {ink : Ink K} {c c' : Canvas K}
    (h : c.setink ink = .ok c') (hcall : ∀ pen : Pen K, pen.call env m heap call = ({ pen with ink := (colour ink).getD pen.ink }, []))
    (hsp : spill call = 0) (hinks : ∀ mode, InksOk mode call → InMode mode ink) : Sim env m heap D c c' call := by
  obtain ⟨L, objs, new, he, _, _, hp, hr, hm⟩ := setink_spec (env := env) h
  refine ⟨L, objs, he.lines, he.bg, hp, ?_⟩
  intro pen σ hstd _ hma
  have := runOps_exec hstd (hr σ)
  refine ⟨_, [], this.1, ⟨this.2, by rw [hsp]; rfl⟩, ?_, by simp [withInk], by rw [hcall], ?_⟩
  · rw [hcall]
    exact ⟨hma.ctm, by rw [he.width]; exact hma.width, by rw [he.dash]; exact hma.dash1, by rw [he.dash]; exact hma.dash2,
      ⟨hma.pen.width, hma.pen.dash, hma.pen.path⟩⟩
  · intro mode hi hcol hink
    obtain ⟨k, e, h1, h2⟩ := hm mode pen.ink (hinks mode hi) hcol
    have h3 := h2 σ.gs.ink (fun _ => hink)
    rw [hcall]
    simp only [e, Option.getD_some, withInk, h3]
    exact ⟨trivial, trivial, h1⟩

theorem flatten_words (ws : List String) : (ws.map (fun w => [Tok.word w]) : List (Line K)).flatten = ws.map Tok.word := by
  induction ws with
  | nil => rfl
  | cons a ws ih => simp [ih]

theorem roundedPath_eq (m : CTM K) (r : K) (p1 p2 : K × K) (rest : List (K × K)) :
    let mid := ((p1.1 + p2.1) / 2, (p1.2 + p2.2) / 2)
    let poly := mid :: ((p2 :: rest) ++ [p1])
    (poly.drop 1).zip (poly.drop 2 ++ poly.take 1) = ((p2 :: rest) ++ [p1]).zip (rest ++ [p1, mid]) := by
  simp

theorem call_sim (m : CTM K) (heap : Nat → List K) {c c' : Canvas K} {call : Call K} (h : c.call heap call = .ok c')
    (hpl : PlainCall call) (D : List String) (hD : ∀ k ∈ c'.deps, k ∈ D) : Sim env m heap D c c' call := by
  cases call with
  | setgray v => exact setink_sim (ink := .num v) h (fun _ => rfl) rfl (by rintro mode rfl; trivial)
  | setcolor r g b => exact setink_sim (ink := .tuple [r, g, b]) h (fun _ => rfl) rfl (by rintro mode rfl; rfl)
  | setink ink => exact setink_sim h (fun _ => rfl) rfl (fun _ h => h)
  | setwidth w =>
    simp only [Canvas.call, Except.ok.injEq] at h
    rw [Canvas.setwidth] at h
    split at h
    · rename_i hw
      subst h
      refine ⟨[], [], by simp, rfl, .nil, ?_⟩
      intro pen σ hstd _ hm
      refine ⟨σ, [], .nil _, ⟨rfl, rfl⟩, ?_, by simp, rfl, fun mode _ h1 h2 => ⟨rfl, h2, by rw [h2]; exact h1⟩⟩
      refine ⟨hm.ctm, hw, hm.dash1, hm.dash2, ⟨?_, hm.pen.dash, hm.pen.path⟩⟩
      show σ.gs.width = w
      rw [hm.pen.width, ← hm.width, hw]
    · subst h
      refine ⟨[[.num w, .word "w"]], [.num w, .name "w"], rfl, rfl, .flat rfl, ?_⟩
      intro pen σ hstd _ hm
      have hr : runOps env [.num w, .name "w"] σ = some { σ with gs := { σ.gs with width := w } } := by simp [runOps, operator]
      have := runOps_exec hstd hr
      exact ⟨_, [], this.1, ⟨this.2, rfl⟩, ⟨hm.ctm, rfl, hm.dash1, hm.dash2, ⟨rfl, hm.pen.dash, hm.pen.path⟩⟩, by simp, rfl,
        fun mode _ h1 h2 => ⟨rfl, h2, by rw [← h2] at h1; exact h1.congr rfl rfl⟩⟩
  | setdash i o =>
    simp only [Canvas.call, Except.ok.injEq] at h
    rw [Canvas.setdash] at h
    split at h
    · rename_i hw
      subst h
      refine ⟨[], [], by simp, rfl, .nil, ?_⟩
      intro pen σ hstd _ hm
      refine ⟨σ, [], .nil _, ⟨rfl, rfl⟩, ?_, by simp, rfl, fun mode _ h1 h2 => ⟨rfl, h2, by rw [h2]; exact h1⟩⟩
      refine ⟨hm.ctm, hm.width, hw.1, hw.2, ⟨hm.pen.width, ?_, hm.pen.path⟩⟩
      show σ.gs.dash = (heap (listRef i), o)
      rw [hm.pen.dash, ← hw.1, ← hw.2, hm.dash1, hm.dash2]
    · subst h
      refine ⟨[.word "[" :: ((heap (listRef i)).map .num ++ [.word "]", .num o, .word "setdash"])],
        .name "[" :: ((heap (listRef i)).map .num ++ [.name "]", .num o, .name "setdash"]), rfl, rfl, .flat ?_, ?_⟩
      · simp [toObj?]
      · intro pen σ hstd _ hm
        have hpush : ∀ (l : List K) (rest : List (Obj K)) (τ : St K), runOps env (l.map .num ++ rest) τ =
            runOps env rest { τ with stack := (l.map Obj.num).reverse ++ τ.stack } := by
          intro l
          induction l with
          | nil => intro rest τ; rfl
          | cons x l ih =>
            intro rest τ
            rw [List.map_cons, List.cons_append]
            simp only [runOps]
            rw [ih]
            simp
        have hmark : ∀ (l acc : List K) (st : List (Obj K)), toMark (l.map Obj.num ++ .mark :: st) acc = some (l.reverse ++ acc, st) := by
          intro l
          induction l with
          | nil => intro acc st; simp [toMark]
          | cons x l ih => intro acc st; simp [toMark, ih]
        have hr : runOps env (.name "[" :: ((heap (listRef i)).map .num ++ [.name "]", .num o, .name "setdash"])) σ =
            some { σ with gs := { σ.gs with dash := (heap (listRef i), o) } } := by
          simp only [runOps, table_lbracket, operator, Option.bind_some]
          rw [hpush]
          simp only [runOps, table_rbracket, operator, ← List.map_reverse, hmark]
          simp [operator]
        have := runOps_exec hstd hr
        exact ⟨_, [], this.1, ⟨this.2, rfl⟩, ⟨hm.ctm, hm.width, rfl, rfl, ⟨hm.pen.width, rfl, hm.pen.path⟩⟩, by simp, rfl,
          fun mode _ h1 h2 => ⟨rfl, h2, by rw [← h2] at h1; exact h1.congr rfl rfl⟩⟩
  | circle ce r f s =>
    simp only [Canvas.call, Canvas.addcircle, bind, Except.bind] at h
    cases hpaint : (c.emit [.num ce.1, .num ce.2, .num r, .num 0, .num 360, .word "arc", .word "cp"]).paint f s with
    | error e => rw [hpaint] at h; cases h
    | ok c2 =>
      rw [hpaint] at h
      simp only [pure, Except.pure, Except.ok.injEq] at h
      subst h
      refine shape_sim (newpath := fun p => p ++ [.arc (m.apply ce.1 ce.2) (m.sx * r, m.sy * r) 0 360, .close])
        (objs := [.num ce.1, .num ce.2, .num r, .num 0, .num 360, .name "arc", .name "cp"])
        (Emit.emit _ _) rfl (.flat rfl) ?_ hpaint rfl rfl rfl (fun _ => rfl) (fun _ h => h)
      intro σ hctm
      exact ⟨σ.stack, by subst hctm; simp [runOps, operator, withPath], rfl⟩
  | polyline ps s =>
    cases ps with
    | nil =>
      simp only [Canvas.call, Canvas.addpolyline, Except.ok.injEq] at h
      subst h
      refine ⟨[], [], by simp, rfl, .nil, ?_⟩
      intro pen σ hstd _ hm
      exact ⟨σ, [], .nil _, ⟨rfl, rfl⟩, hm, by simp, rfl, fun mode _ h1 h2 => ⟨rfl, h2, by rw [h2]; exact h1⟩⟩
    | cons p ps =>
      simp only [Canvas.call, Canvas.addpolyline, bind, Except.bind] at h
      obtain ⟨L, objs, h1, _, _, h3', _, h5, h6⟩ := lineLoop_spec (env := env) ((c.emit [.word "np"]).emit [.num p.1, .num p.2, .word "m"])
        (BBox.ofCorners p p) ps
      generalize hc1 : ((c.emit [.word "np"]).emit [.num p.1, .num p.2, .word "m"]).lineLoop (BBox.ofCorners p p) ps = cb at h h1 h3'
      obtain ⟨c1, b⟩ := cb
      simp only at h h1 h3'
      have hbuild : ∀ σ : St K, σ.gs.ctm = m → runOps env ([.name "np"] ++ [.num p.1, .num p.2, .name "m"] ++ objs) σ =
          some (withPath σ (polyPath m (p :: ps))) := by
        rintro σ rfl
        rw [runOps_append]
        have : runOps env ([.name "np"] ++ [.num p.1, .num p.2, .name "m"]) σ = some (withPath σ [.move (σ.gs.ctm.apply p.1 p.2)]) := by
          simp [runOps, operator, withPath]
        rw [this, Option.bind_some, h6 _ (by simp [withPath])]
        simp [withPath, polyPath]
      have he : Emit c c1 ([[.word "np"]] ++ [[.num p.1, .num p.2, .word "m"]] ++ L) :=
        ((Emit.emit _ _).trans (Emit.emit _ _)).trans h1
      have hpar : Parses ([[.word "np"]] ++ [[.num p.1, .num p.2, .word "m"]] ++ L : List (Line K)).flatten
          ([.name "np"] ++ [.num p.1, .num p.2, .name "m"] ++ objs) := by
        simp only [List.flatten_append]
        exact ((Parses.flat rfl).append (.flat rfl)).append h5
      have hst : c1.state = c.state := h3'
      -- the ink
      have hink : ∃ c2 L2 objs2, ∃ new : K × K × K → K × K × K,
          c' = { c2.emit [.word "s"] with bbox := c2.bbox.union b } ∧ Emit c1 c2 L2 ∧ Parses L2.flatten objs2 ∧
          (∀ σ : St K, runOps env objs2 σ = some (withInk σ (new σ.gs.ink))) ∧
          ∀ mode col, (∀ i, s = some i → InMode mode i) → Cached mode c1.state col → ∀ i, i = col →
            new i = ((s.bind colour).getD col) ∧ Cached mode c2.state ((s.bind colour).getD col) := by
        cases s with
        | none =>
          simp only [pure, Except.pure, Except.ok.injEq] at h
          exact ⟨c1, [], [], id, h.symm, .refl _, .nil, fun _ => rfl, fun mode col _ hc i hi => ⟨hi, hc⟩⟩
        | some ink =>
          simp only at h
          cases hs : c1.setink ink with
          | error e => rw [hs] at h; cases h
          | ok c2 =>
            rw [hs] at h
            simp only [pure, Except.pure, Except.ok.injEq] at h
            obtain ⟨L2, objs2, new, he2, _, _, hp2, hr2, hm2⟩ := setink_spec (env := env) hs
            refine ⟨c2, L2, objs2, new, h.symm, he2, hp2, hr2, ?_⟩
            intro mode col hi hc i hicol
            obtain ⟨k, e, hc', hk⟩ := hm2 mode col (hi ink rfl) hc
            simp only [Option.bind_some, e, Option.getD_some]
            exact ⟨hk i (fun _ => hicol), hc'⟩
      obtain ⟨c2, L2, objs2, new, rfl, he2, hp2, hr2, hm2⟩ := hink
      have he' := (he.trans he2).trans (Emit.emit c2 [.word "s"])
      refine ⟨_, ([.name "np"] ++ [.num p.1, .num p.2, .name "m"] ++ objs) ++ objs2 ++ [.name "s"], he'.lines, he'.bg, ?_, ?_⟩
      · rw [List.flatten_append, List.flatten_append]
        exact (hpar.append hp2).append (.flat rfl)
      · intro pen σ hstd _ hm
        have hr : runOps env (([.name "np"] ++ [.num p.1, .num p.2, .name "m"] ++ objs) ++ objs2 ++ [.name "s"]) σ =
            some { withInk σ (new σ.gs.ink) with
              gs := { (withInk σ (new σ.gs.ink)).gs with path := [] }
              page := σ.page ++ [.stroke (polyPath m (p :: ps)) (new σ.gs.ink) σ.gs.width σ.gs.dash] } := by
          rw [runOps_append, runOps_append, hbuild σ hm.ctm, Option.bind_some, hr2, Option.bind_some]
          simp [runOps, operator, withInk, withPath]
        have hex := runOps_exec hstd hr
        have hcall : pen.call env m heap (.polyline (p :: ps) s) = ({ pen with ink := (s.bind colour).getD pen.ink, path := [] },
            [.stroke (polyPath m (p :: ps)) ((s.bind colour).getD pen.ink) pen.width pen.dash]) := by
          rw [Pen.call, if_neg (by simp)]
        refine ⟨_, _, hex.1, ⟨hex.2, rfl⟩, ?_, rfl, ?_, ?_⟩
        · rw [hcall]
          exact ⟨hm.ctm, by rw [show (_ : Canvas K).state.width = _ from he'.width]; exact hm.width,
            by rw [show (_ : Canvas K).state.dash = _ from he'.dash]; exact hm.dash1,
            by rw [show (_ : Canvas K).state.dash = _ from he'.dash]; exact hm.dash2, ⟨hm.pen.width, hm.pen.dash, rfl⟩⟩
        · rw [hcall]
          simp [noInk, hm.pen.width, hm.pen.dash]
        · intro mode hi hcol hink
          obtain ⟨h7, h8⟩ := hm2 mode pen.ink hi (by rw [hst]; exact hcol) σ.gs.ink hink
          rw [hcall, h7]
          refine ⟨by rw [hm.pen.width, hm.pen.dash], rfl, ?_⟩
          exact h8
  | polygon ps f s =>
    cases ps with
    | nil =>
      simp only [Canvas.call, Canvas.addpolygon, Except.ok.injEq] at h
      subst h
      refine ⟨[], [], by simp, rfl, .nil, ?_⟩
      intro pen σ hstd _ hm
      exact ⟨σ, [], .nil _, ⟨rfl, rfl⟩, hm, by simp, rfl, fun mode _ h1 h2 => ⟨rfl, h2, by rw [h2]; exact h1⟩⟩
    | cons p ps =>
      simp only [Canvas.call, Canvas.addpolygon, bind, Except.bind] at h
      obtain ⟨L, objs, h1, _, _, h3', _, h5, h6⟩ := lineLoop_spec (env := env) ((c.emit [.word "np"]).emit [.num p.1, .num p.2, .word "m"])
        (BBox.ofCorners p p) ps
      generalize hc1 : ((c.emit [.word "np"]).emit [.num p.1, .num p.2, .word "m"]).lineLoop (BBox.ofCorners p p) ps = cb at h h1 h3'
      obtain ⟨c1, b⟩ := cb
      simp only at h h1 h3'
      cases hpaint : (c1.emit [.word "cp"]).paint f s with
      | error e => rw [hpaint] at h; cases h
      | ok c2 =>
        rw [hpaint] at h
        simp only [pure, Except.pure, Except.ok.injEq] at h
        subst h
        refine shape_sim (c1 := c1.emit [.word "cp"]) (newpath := fun _ => polyPath m (p :: ps) ++ [.close])
          (objs := [.name "np"] ++ [.num p.1, .num p.2, .name "m"] ++ objs ++ [.name "cp"])
          (L := [[.word "np"]] ++ [[.num p.1, .num p.2, .word "m"]] ++ L ++ [[.word "cp"]])
          ((((Emit.emit _ _).trans (Emit.emit _ _)).trans h1).trans (.emit _ [.word "cp"])) h3' ?_ ?_ hpaint rfl rfl rfl (fun _ => rfl) (fun _ h => h)
        · simp only [List.flatten_append]
          exact (((Parses.flat rfl).append (.flat rfl)).append h5).append (.flat rfl)
        · rintro σ rfl
          refine ⟨σ.stack, ?_, rfl⟩
          rw [runOps_append, runOps_append]
          have : runOps env ([.name "np"] ++ [.num p.1, .num p.2, .name "m"]) σ = some (withPath σ [.move (σ.gs.ctm.apply p.1 p.2)]) := by
            simp [runOps, operator, withPath]
          rw [this, Option.bind_some, h6 _ (by simp [withPath]), Option.bind_some]
          simp [runOps, operator, withPath, polyPath]
  | rounded ps r f s =>
    match ps, h with
    | [], h => cases h
    | [_], h => cases h
    | p1 :: p2 :: rest, h =>
      simp only [Canvas.call, Canvas.addroundedpolygon, bind, Except.bind] at h
      rw [roundedPath_eq m r p1 p2 rest] at h
      obtain ⟨L, objs, h1, _, _, h3', h5, h6⟩ := arctoLoop_spec (env := env) ((c.emit [.word "np"]).emit
        [.num ((p1.1 + p2.1) / 2), .num ((p1.2 + p2.2) / 2), .word "m"]) r (((p2 :: rest) ++ [p1]).zip (rest ++ [p1, ((p1.1 + p2.1) / 2, (p1.2 + p2.2) / 2)]))
      generalize hc1 : ((c.emit [.word "np"]).emit [.num ((p1.1 + p2.1) / 2), .num ((p1.2 + p2.2) / 2), .word "m"]).arctoLoop r
        (((p2 :: rest) ++ [p1]).zip (rest ++ [p1, ((p1.1 + p2.1) / 2, (p1.2 + p2.2) / 2)])) = c1 at h h1 h3'
      cases hpaint : (c1.emit [.word "cp"]).paint f s with
      | error e => rw [hpaint] at h; cases h
      | ok c2 =>
        rw [hpaint] at h
        simp only [BBox.ofPoints, pure, Except.pure, Except.ok.injEq] at h
        subst h
        refine shape_sim (c1 := c1.emit [.word "cp"]) (newpath := fun _ => roundedPath m r (p1 :: p2 :: rest) ++ [.close])
          (objs := [.name "np"] ++ [.num ((p1.1 + p2.1) / 2), .num ((p1.2 + p2.2) / 2), .name "m"] ++ objs ++ [.name "cp"])
          (L := [[.word "np"]] ++ [[.num ((p1.1 + p2.1) / 2), .num ((p1.2 + p2.2) / 2), .word "m"]] ++ L ++ [[.word "cp"]])
          ((((Emit.emit _ _).trans (Emit.emit _ _)).trans h1).trans (.emit _ [.word "cp"])) h3' ?_ ?_ hpaint rfl rfl rfl (fun _ => rfl) (fun _ h => h)
        · simp only [List.flatten_append]
          exact (((Parses.flat rfl).append (.flat rfl)).append h5).append (.flat rfl)
        · rintro σ rfl
          obtain ⟨st, h7, hlen⟩ := h6 (withPath σ [.move (σ.gs.ctm.apply ((p1.1 + p2.1) / 2) ((p1.2 + p2.2) / 2))]) (by simp [withPath])
          refine ⟨st, ?_, by simpa [withPath, spill] using hlen⟩
          rw [runOps_append, runOps_append]
          have : runOps env ([.name "np"] ++ [.num ((p1.1 + p2.1) / 2), .num ((p1.2 + p2.2) / 2), .name "m"]) σ =
              some (withPath σ [.move (σ.gs.ctm.apply ((p1.1 + p2.1) / 2) ((p1.2 + p2.2) / 2))]) := by
            simp [runOps, operator, withPath]
          rw [this, Option.bind_some, h7, Option.bind_some]
          simp [runOps, operator, withPath, roundedPath]
  | text pos t size font anchor =>
    simp only [Canvas.call, Canvas.addtext] at h
    split at h
    · cases h
    · rename_i ha
      simp only [not_not] at ha
      simp only [Except.ok.injEq] at h
      subst h
      refine ⟨[[.raw ('(' :: (t ++ [')'])), .num size, .lit font, .num pos.1, .num pos.2, .word ("s" ++ anchor)]],
        [.str t] ++ [.num size, .lit font, .num pos.1, .num pos.2, .name ("s" ++ anchor)], rfl, rfl, ?_, ?_⟩
      · rw [List.flatten_singleton]
        refine Parses.append (a := [_]) (.raw (strLit_plain t hpl)) (.flat ?_)
        have : "s" ++ anchor ≠ "<" := by
          simp only [List.mem_cons, List.not_mem_nil, or_false] at ha
          rcases ha with rfl | rfl | rfl | rfl | rfl | rfl | rfl | rfl | rfl <;> decide
        simp [toObj?, this]
      · intro pen σ hstd htd hm
        have hkey : "s" ++ anchor ∈ depKeys := by
          simp only [List.mem_cons, List.not_mem_nil, or_false] at ha
          rcases ha with rfl | rfl | rfl | rfl | rfl | rfl | rfl | rfl | rfl <;> decide
        have hD1 : "s" ++ anchor ∈ D := hD _ (by simp)
        have hD2 : "sz" ∈ D := hD _ (by simp [hkey])
        -- after the operands and `m`
        let p := m.apply pos.1 pos.2
        obtain ⟨b, hb, hsz⟩ := sz_run (env := env)
          { σ with stack := .lit font :: .num size :: .str t :: σ.stack, gs := { σ.gs with path := σ.gs.path ++ [.move p] } }
          t font size σ.stack p rfl (by simp [current])
        obtain ⟨tail, htail, htr⟩ := tail_run (env := env)
          { σ with stack := .num (b.2.2.1 - b.1) :: .num (b.2.2.2 - b.2.1) :: .str t :: σ.stack,
                   gs := { σ.gs with path := σ.gs.path ++ [.move p], font := some (font, size) } }
          t font size σ.stack p _ _ rfl (by simp [current]) rfl anchor ha
        have hszd := htd.1 hD2
        have hkd := htd.2 _ _ htail hD1
        have e1 : Exec env ([.str t] ++ [.num size, .lit font, .num pos.1, .num pos.2])  σ
            { σ with stack := .num pos.2 :: .num pos.1 :: .lit font :: .num size :: .str t :: σ.stack } :=
          (runOps_exec hstd (env := env) (by simp only [runOps, List.cons_append, List.nil_append])).1
        have e2 : Exec env [.name "m"] { σ with stack := .num pos.2 :: .num pos.1 :: .lit font :: .num size :: .str t :: σ.stack }
            { σ with stack := .lit font :: .num size :: .str t :: σ.stack, gs := { σ.gs with path := σ.gs.path ++ [.move p] } } :=
          (runOps_exec (env := env) (a := [.name "m"])
            (σ := { σ with stack := .num pos.2 :: .num pos.1 :: .lit font :: .num size :: .str t :: σ.stack })
            hstd (by simp [runOps, operator, p, hm.ctm])).1
        have e3 := (runOps_exec (by exact hstd) hsz).1
        have e4 := runOps_exec (env := env) (by exact hstd) htr
        have e5 := Exec.append e1 (Exec.one (s := "s" ++ anchor) hkd (Exec.append (a := [.name "m"]) e2
          (Exec.append (a := [.name "sz"]) (Exec.one hszd e3) e4.1)))
        rw [List.append_assoc] at e5
        refine ⟨_, _, e5, ⟨rfl, rfl⟩, ?_, rfl, ?_, ?_⟩
        · refine ⟨hm.ctm, hm.width, hm.dash1, hm.dash2, ⟨hm.pen.width, hm.pen.dash, ?_⟩⟩
          simp only [Pen.call, hb, hm.ctm, hm.pen.path, List.append_assoc, List.cons_append, List.nil_append]
          rfl
        · simp only [Pen.call, hb, hm.ctm, hm.pen.path, List.append_assoc, List.cons_append, List.nil_append, List.map_cons, noInk]
          rfl
        · intro mode _ hcol hink
          refine ⟨?_, hink, ?_⟩
          · simp only [Pen.call, hb, hm.ctm, hm.pen.path, List.append_assoc, List.cons_append, List.nil_append, hink]
            rfl
          · show Cached mode c.state σ.gs.ink
            rw [hink]; exact hcol
  | image d w po sc co =>
    simp only [Canvas.call, Canvas.addimage] at h
    generalize hcwd : (if co = true then 3 * w else w) = cw at h
    by_cases hcw : cw = 0
    · rw [if_pos hcw] at h; cases h
    · rw [if_neg hcw] at h
      simp only [Except.ok.injEq] at h
      obtain ⟨pre, preObjs, hpre, hpreP, hpreR⟩ : ∃ (pre : List (Line K)) (preObjs : List (Obj K)),
          (∀ c0 : Canvas K, Emit c0 (c0.translated po) pre ∧ (c0.translated po).state = c0.state) ∧ Parses pre.flatten preObjs ∧
          ∀ σ : St K, runOps env preObjs σ = some { σ with gs := { σ.gs with ctm := ⟨σ.gs.ctm.sx, σ.gs.ctm.sy,
            σ.gs.ctm.sx * (po.getD (0, 0)).1 + σ.gs.ctm.tx, σ.gs.ctm.sy * (po.getD (0, 0)).2 + σ.gs.ctm.ty⟩ } } := by
        cases po with
        | none => exact ⟨[], [], fun _ => ⟨.refl _, rfl⟩, .nil, fun σ => by simp [runOps]⟩
        | some p => exact ⟨[[.num p.1, .num p.2, .word "translate"]], [.num p.1, .num p.2, .name "translate"],
            fun _ => ⟨.emit _ _, rfl⟩, .flat rfl, fun σ => by simp [runOps, operator]⟩
      obtain ⟨hE1, hS1⟩ := hpre (c.emit [.word "gs"])
      generalize hc1 : (c.emit [.word "gs"]).translated po = c1 at h hE1 hS1
      generalize hc2 : ((c1.emit [.num ((w : K) * sc), .num (((d.length / cw : Nat) : K) * sc), .word "scale"]).emit
        [.num (w : K), .num ((d.length / cw : Nat) : K), .num 8, .word "[", .num (w : K), .num 0, .num 0, .num (-((d.length / cw : Nat) : K)),
          .num 0, .num ((d.length / cw : Nat) : K), .word "]"]).emit [.lbrace, .word "<"] = c2 at h
      obtain ⟨ws, hE3, _, _, hS3, hws, _, hhex⟩ := hexLoop_spec c2 d cw (d.length / cw) 0 (by rw [Nat.zero_add]; exact Nat.div_mul_le_self _ _) hpl
      generalize hc3 : c2.hexLoop d cw (d.length / cw) 0 = c3 at h hE3 hS3
      let post : Line K := if co then [.word "false", .num 3, .word "colorimage"] else [.word "image"]
      have hpost : (if co = true then (c3.emit [.word ">", .rbrace]).emit [.word "false", .num 3, .word "colorimage"]
          else (c3.emit [.word ">", .rbrace]).emit [.word "image"]) = (c3.emit [.word ">", .rbrace]).emit post := by
        cases co <;> rfl
      rw [hpost] at h
      subst h
      have hEmit := (((((((((Emit.emit c [.word "gs"]).trans hE1).trans
        (Emit.emit c1 [.num ((w : K) * sc), .num (((d.length / cw : Nat) : K) * sc), .word "scale"])).trans (Emit.emit _
          [.num (w : K), .num ((d.length / cw : Nat) : K), .num 8, .word "[", .num (w : K), .num 0, .num 0, .num (-((d.length / cw : Nat) : K)),
          .num 0, .num ((d.length / cw : Nat) : K), .word "]"])).trans (Emit.emit _ [.lbrace, .word "<"])).trans (hc2 ▸ hE3)).trans
          (Emit.emit c3 [.word ">", .rbrace])).trans (Emit.emit _ post)).trans (Emit.emit _ [.word "gr"]))
      have hstate : c3.state = c.state := by
        rw [hS3, ← hc2]; exact hS1
      let postObjs : List (Obj K) := if co then [.name "false", .num 3, .name "colorimage"] else [.name "image"]
      have hpostP : Parses post postObjs := by
        show Parses (if co then [.word "false", .num 3, .word "colorimage"] else [.word "image"])
          (if co then [.name "false", .num 3, .name "colorimage"] else [.name "image"])
        cases co
        · exact .flat rfl
        · exact .flat rfl
      refine ⟨_, [.name "gs"] ++ preObjs ++ [.num ((w : K) * sc), .num (((d.length / cw : Nat) : K) * sc), .name "scale"] ++
        [.num (w : K), .num ((d.length / cw : Nat) : K), .num 8, .name "[", .num (w : K), .num 0, .num 0, .num (-((d.length / cw : Nat) : K)),
          .num 0, .num ((d.length / cw : Nat) : K), .name "]"] ++ [.proc [.bytes ((d.drop 0).take (d.length / cw * cw))]] ++ postObjs ++
        [.name "gr"], hEmit.lines, hEmit.bg, ?_, ?_⟩
      · have himg := Parses.image (K := K) ws _ hws hhex
        have hflat := flatten_words (K := K) ws
        have h1 : Parses ([[.word "gs"]] ++ pre ++ [[.num ((w : K) * sc), .num (((d.length / cw : Nat) : K) * sc), .word "scale"]] ++
            [[.num (w : K), .num ((d.length / cw : Nat) : K), .num 8, .word "[", .num (w : K), .num 0, .num 0, .num (-((d.length / cw : Nat) : K)),
          .num 0, .num ((d.length / cw : Nat) : K), .word "]"]] : List (Line K)).flatten
            ([.name "gs"] ++ preObjs ++ [.num ((w : K) * sc), .num (((d.length / cw : Nat) : K) * sc), .name "scale"] ++
        [.num (w : K), .num ((d.length / cw : Nat) : K), .num 8, .name "[", .num (w : K), .num 0, .num 0, .num (-((d.length / cw : Nat) : K)),
          .num 0, .num ((d.length / cw : Nat) : K), .name "]"]) := by
          simp only [List.flatten_append]
          exact (((Parses.flat rfl).append hpreP).append (.flat rfl)).append (.flat rfl)
        have h2 := ((h1.append himg).append hpostP).append (.flat (ts := [.word "gr"]) (os := [.name "gr"]) rfl)
        have h3 : (([[.word "gs"]] ++ pre ++ [[.num ((w : K) * sc), .num (((d.length / cw : Nat) : K) * sc), .word "scale"]] ++
            [[.num (w : K), .num ((d.length / cw : Nat) : K), .num 8, .word "[", .num (w : K), .num 0, .num 0, .num (-((d.length / cw : Nat) : K)),
          .num 0, .num ((d.length / cw : Nat) : K), .word "]"]] : List (Line K)).flatten ++
            ([.lbrace, .word "<"] ++ ws.map Tok.word ++ [.word ">", .rbrace]) ++ post ++ [.word "gr"]) =
            ([[.word "gs"]] ++ pre ++ [[.num ((w : K) * sc), .num (((d.length / cw : Nat) : K) * sc), .word "scale"]] ++
            [[.num (w : K), .num ((d.length / cw : Nat) : K), .num 8, .word "[", .num (w : K), .num 0, .num 0, .num (-((d.length / cw : Nat) : K)),
          .num 0, .num ((d.length / cw : Nat) : K), .word "]"]] ++ [[.lbrace, .word "<"]] ++ ws.map (fun w => [Tok.word w]) ++
            [[.word ">", .rbrace]] ++ [post] ++ [[.word "gr"]] : List (Line K)).flatten := by
          simp only [List.flatten_append, hflat, List.flatten_singleton, List.append_assoc]
        rw [h3] at h2
        exact h2
      · intro pen σ hstd _ hm
        have hcall : pen.call env m heap (.image d w po sc co) = (pen, [.image (d.take (d.length / cw * cw)) w (d.length / cw : Nat)
            [(w : K), 0, 0, -((d.length / cw : Nat) : K), 0, ((d.length / cw : Nat) : K)] co
            ⟨m.sx * (w * sc), m.sy * ((d.length / cw : Nat) * sc), m.sx * (po.getD (0, 0)).1 + m.tx, m.sy * (po.getD (0, 0)).2 + m.ty⟩]) := by
          simp only [Pen.call, hcwd]
        have hr : runOps env ([.name "gs"] ++ preObjs ++ [.num ((w : K) * sc), .num (((d.length / cw : Nat) : K) * sc), .name "scale"] ++
          [.num (w : K), .num ((d.length / cw : Nat) : K), .num 8, .name "[", .num (w : K), .num 0, .num 0, .num (-((d.length / cw : Nat) : K)),
          .num 0, .num ((d.length / cw : Nat) : K), .name "]"] ++ [.proc [.bytes ((d.drop 0).take (d.length / cw * cw))]] ++ postObjs ++
          [.name "gr"]) σ = some { σ with page := σ.page ++ (pen.call env m heap (.image d w po sc co)).2 } := by
          rw [hcall, ← hm.ctm]
          rw [show ∀ A B C D E : List (Obj K), [.name "gs"] ++ preObjs ++ A ++ B ++ C ++ D ++ E =
            [.name "gs"] ++ (preObjs ++ (A ++ B ++ C ++ D ++ E)) from fun _ _ _ _ _ => by simp]
          rw [runOps_append]
          have : runOps env [.name "gs"] σ = some { σ with saved := σ.gs :: σ.saved } := by simp [runOps, operator]
          rw [this, Option.bind_some, runOps_append, hpreR, Option.bind_some]
          show runOps env (_ ++ _ ++ _ ++ (if co then [.name "false", .num 3, .name "colorimage"] else [.name "image"]) ++ _) _ = _
          cases co <;> simp [runOps, operator, toMark]
        have := runOps_exec hstd hr
        refine ⟨_, _, this.1, ⟨this.2, rfl⟩, ?_, rfl, rfl, ?_⟩
        · rw [hcall]
          exact ⟨hm.ctm, by rw [show (_ : Canvas K).state.width = _ from hEmit.width]; exact hm.width,
            by rw [show (_ : Canvas K).state.dash = _ from hEmit.dash]; exact hm.dash1,
            by rw [show (_ : Canvas K).state.dash = _ from hEmit.dash]; exact hm.dash2, hm.pen⟩
        · intro mode _ hcol hink
          refine ⟨rfl, by rw [hcall]; exact hink, ?_⟩
          show Cached mode c3.state σ.gs.ink
          rw [hstate, hink]; exact hcol
  | resetbbox =>
    simp only [Canvas.call, Except.ok.injEq] at h
    subst h
    refine ⟨[], [], by simp [Canvas.resetbbox], rfl, .nil, ?_⟩
    intro pen σ hstd _ hm
    exact ⟨σ, [], .nil _, ⟨rfl, rfl⟩, ⟨hm.ctm, hm.width, hm.dash1, hm.dash2, hm.pen⟩, by simp, rfl,
      fun mode _ h1 h2 => ⟨rfl, h2, by rw [h2]; exact h1⟩⟩
  | mutate i l => exact hpl.elim

end Vector
end Coral
