import Verif.Spec.PostScript

/-! # Lemmas about the PostScript machine -/
set_option linter.unusedSectionVars false
namespace Coral
namespace PS

/-! ### Scanning -/

/-- The tokens `ts` become the objects `os`, whatever follows. -/
def Parses {K : Type} (ts : List (Tok K)) (os : List (Obj K)) : Prop :=
  ∀ rest, parse (ts ++ rest) = (parse rest).map (os ++ ·)

theorem Parses.nil {K : Type} : Parses ([] : List (Tok K)) [] := by
  intro rest; simp

theorem Parses.append {K : Type} {a b : List (Tok K)} {x y : List (Obj K)} (ha : Parses a x) (hb : Parses b y) :
    Parses (a ++ b) (x ++ y) := by
  intro rest
  rw [List.append_assoc, ha, hb, Option.map_map]
  congr 1
  funext l
  simp

theorem Parses.parse {K : Type} {a : List (Tok K)} {x : List (Obj K)} (h : Parses a x) : parse a = some x := by
  have := h []
  rw [List.append_nil] at this
  rw [this]
  simp [PS.parse, lex, group]

theorem parse_cons_obj {K : Type} {t : Tok K} {o : Obj K}
    (h : ∀ ts, lex none (t :: ts) = (lex none ts).map (.obj o :: ·)) : Parses [t] [o] := by
  intro rest
  rw [List.singleton_append, PS.parse, h, PS.parse]
  cases lex none rest with
  | none => rfl
  | some l => simp [group]

theorem Parses.num {K : Type} (x : K) : Parses [Tok.num x] [Obj.num x] := parse_cons_obj fun _ => by rw [lex]
theorem Parses.lit {K : Type} (s : String) : Parses [Tok.lit s] [(Obj.lit s : Obj K)] := parse_cons_obj fun _ => by rw [lex]
theorem Parses.word {K : Type} (s : String) (hs : s ≠ "<") : Parses [Tok.word s] [(Obj.name s : Obj K)] :=
  parse_cons_obj fun _ => by rw [lex, if_neg hs]
theorem Parses.raw {K : Type} {s t : List Char} (h : strLit s = some t) : Parses [Tok.raw s] [(Obj.str t : Obj K)] :=
  parse_cons_obj fun _ => by rw [lex, h]
theorem Parses.comment {K : Type} (s : String) (a : List K) : Parses [Tok.comment s a] [] := by
  intro rest
  rw [List.singleton_append, PS.parse, lex]
  simp [PS.parse]

/-- Tokens that stand for themselves. -/
def toObj? {K : Type} : Tok K → Option (Obj K)
  | .num x => some (.num x)
  | .word s => if s = "<" then none else some (.name s)
  | .lit s => some (.lit s)
  | _ => none

theorem Parses.flat {K : Type} : ∀ {ts : List (Tok K)} {os : List (Obj K)}, ts.map toObj? = os.map some → Parses ts os
  | [], [], _ => .nil
  | [], _ :: _, h => by simp at h
  | _ :: _, [], h => by simp at h
  | t :: ts, o :: os, h => by
    simp only [List.map_cons, List.cons.injEq] at h
    have h2 := Parses.flat h.2
    rw [← List.singleton_append, ← List.singleton_append (l := os)]
    refine Parses.append ?_ h2
    have h1 := h.1
    cases t with
    | num x => simp only [toObj?, Option.some.injEq] at h1; subst h1; exact .num x
    | word s =>
      rw [toObj?] at h1
      split at h1
      · cases h1
      · simp only [Option.some.injEq] at h1; subst h1; exact .word s ‹_›
    | lit s => simp only [toObj?, Option.some.injEq] at h1; subst h1; exact .lit s
    | raw s => cases h1
    | lbrace => cases h1
    | rbrace => cases h1
    | comment s a => cases h1

/-- A parsed text stays parsed when something follows. -/
theorem group_append {K : Type} (a b : List (Item K)) : ∀ (st : List (List (Obj K))) (x : List (Obj K)), group st a = some x →
    group st (a ++ b) = (group [] b).map (x ++ ·) := by
  induction a with
  | nil =>
    intro st x h
    cases st with
    | nil =>
      rw [group] at h
      injection h with h
      subst h
      simp
    | cons t st => rw [group] at h; cases h
  | cons i a ih =>
    intro st x h
    cases i with
    | obj o =>
      cases st with
      | nil =>
        rw [group] at h
        obtain ⟨y, hy, rfl⟩ := Option.map_eq_some_iff.mp h
        rw [List.cons_append, group, ih _ _ hy, Option.map_map]
        rfl
      | cons t st =>
        rw [group] at h
        rw [List.cons_append, group, ih _ _ h]
    | lbrace =>
      rw [group] at h
      rw [List.cons_append, group, ih _ _ h]
    | rbrace =>
      match st with
      | [] => rw [group] at h; cases h
      | [t] =>
        rw [group] at h
        obtain ⟨y, hy, rfl⟩ := Option.map_eq_some_iff.mp h
        rw [List.cons_append, group, ih _ _ hy, Option.map_map]
        rfl
      | t :: n :: st =>
        rw [group] at h
        rw [List.cons_append, group, ih _ _ h]

theorem lex_append {K : Type} (a b : List (Tok K)) : ∀ (hx : Option (List Char)) (x : List (Item K)), lex hx a = some x →
    lex hx (a ++ b) = (lex none b).map (x ++ ·) := by
  induction a with
  | nil =>
    intro hx x h
    cases hx with
    | none =>
      rw [lex] at h
      injection h with h
      subst h
      simp
    | some w => rw [lex] at h; cases h
  | cons t a ih =>
    intro hx x h
    cases hx with
    | none =>
      cases t with
      | num v =>
        rw [lex] at h
        obtain ⟨y, hy, rfl⟩ := Option.map_eq_some_iff.mp h
        rw [List.cons_append, lex, ih _ _ hy, Option.map_map]
        rfl
      | lit v =>
        rw [lex] at h
        obtain ⟨y, hy, rfl⟩ := Option.map_eq_some_iff.mp h
        rw [List.cons_append, lex, ih _ _ hy, Option.map_map]
        rfl
      | lbrace =>
        rw [lex] at h
        obtain ⟨y, hy, rfl⟩ := Option.map_eq_some_iff.mp h
        rw [List.cons_append, lex, ih _ _ hy, Option.map_map]
        rfl
      | rbrace =>
        rw [lex] at h
        obtain ⟨y, hy, rfl⟩ := Option.map_eq_some_iff.mp h
        rw [List.cons_append, lex, ih _ _ hy, Option.map_map]
        rfl
      | comment s args =>
        rw [lex] at h
        rw [List.cons_append, lex, ih _ _ h]
      | word s =>
        rw [lex] at h
        rw [List.cons_append, lex]
        split at h
        · rename_i hs
          rw [if_pos hs, ih _ _ h]
        · rename_i hs
          obtain ⟨y, hy, rfl⟩ := Option.map_eq_some_iff.mp h
          rw [if_neg hs, ih _ _ hy, Option.map_map]
          rfl
      | raw s =>
        rw [lex] at h
        rw [List.cons_append, lex]
        cases hs : strLit s with
        | none => rw [hs] at h; cases h
        | some u =>
          rw [hs] at h
          obtain ⟨y, hy, rfl⟩ := Option.map_eq_some_iff.mp h
          simp only
          rw [ih _ _ hy, Option.map_map]
          rfl
    | some w =>
      cases t with
      | word s =>
        rw [lex] at h
        rw [List.cons_append, lex]
        split at h
        · rename_i hs
          rw [if_pos hs]
          cases hb : hexBytes w with
          | none => rw [hb] at h; cases h
          | some u =>
            rw [hb] at h
            obtain ⟨y, hy, rfl⟩ := Option.map_eq_some_iff.mp h
            simp only
            rw [ih _ _ hy, Option.map_map]
            rfl
        · rename_i hs
          rw [if_neg hs, ih _ _ h]
      | _ => simp [lex] at h

theorem parses_iff {K : Type} {a : List (Tok K)} {x : List (Obj K)} : Parses a x ↔ parse a = some x := by
  refine ⟨Parses.parse, ?_⟩
  intro h rest
  obtain ⟨i, hi, hg⟩ := Option.bind_eq_some_iff.mp h
  rw [parse, lex_append a rest _ _ hi, parse]
  cases lex none rest with
  | none => rfl
  | some j =>
    simp only [Option.map_some, Option.bind_some]
    exact group_append _ _ _ _ hg

/-! ### Execution -/

variable {K : Type} [Field K] [DecidableEq K] {env : Env K}

theorem Exec.append {a b : List (Obj K)} {σ σ1 σ2 : St K} (h1 : Exec env a σ σ1) (h2 : Exec env b σ1 σ2) :
    Exec env (a ++ b) σ σ2 := by
  induction h1 with
  | nil => exact h2
  | cons h _ ih =>
    refine .cons h ?_
    show Exec env (_ ++ (_ ++ b)) _ _
    rw [← List.append_assoc]
    exact ih h2

/-- There is at most one result. -/
theorem Exec.det {a : List (Obj K)} {σ σ1 σ2 : St K} (h1 : Exec env a σ σ1) (h2 : Exec env a σ σ2) : σ1 = σ2 := by
  induction h1 generalizing σ2 with
  | nil => cases h2; rfl
  | cons h _ ih =>
    cases h2 with
    | cons h' h2 =>
      rw [h] at h'
      simp only [Option.some.injEq, Prod.mk.injEq] at h'
      obtain ⟨rfl, rfl⟩ := h'
      exact ih h2

theorem Runs.det {file : List (Tok K)} {σ1 σ2 : St K} (h1 : Runs env file σ1) (h2 : Runs env file σ2) : σ1 = σ2 := by
  obtain ⟨c1, e1, h1⟩ := h1
  obtain ⟨c2, e2, h2⟩ := h2
  rw [e1] at e2
  injection e2 with e2
  subst e2
  exact h1.det h2

theorem Exec.one {s : String} {body : List (Obj K)} {σ τ : St K} (h : σ.dict.lookup s = some body) (hb : Exec env body σ τ) :
    Exec env [.name s] σ τ := by
  refine .cons (body := body) (σ1 := σ) (by rw [act, h]) ?_
  rw [List.append_nil]
  exact hb

theorem operator_dict {op : Op} {σ σ' : St K} (h : operator env op σ = some σ') (hop : op ≠ .define) : σ'.dict = σ.dict := by
  cases op <;> simp only [operator] at h <;> (try exact absurd rfl hop) <;> (repeat' split at h) <;>
    first
      | (cases h; done)
      | (injection h with h; subst h; rfl)
      | (obtain ⟨_, _, rfl⟩ := Option.map_eq_some_iff.mp h; rfl)

end PS
end Coral
