import Verif.Spec.Shell
import Mathlib.Tactic.Linarith

/-! Facts about splitting commands into words. -/
namespace Coral
namespace Shell

theorem go_cons (cur : Option Str) (c : Char) (cs : Str) : wordsGo .no cur (c :: cs) =
    if isBlank c then
      match cur with
      | none => wordsGo .no none cs
      | some w => (wordsGo .no none cs).map (w :: ·)
    else if c = '\'' then wordsGo .single (some (cur.getD [])) cs
    else if c = '"' then wordsGo .double (some (cur.getD [])) cs
    else if c = '\\' then wordsGo .esc cur cs
    else if c ∈ special ∨ (cur = none ∧ c ∈ specialFirst) then none
    else wordsGo .no (some (cur.getD [] ++ [c])) cs := by
  cases cur <;> rw [wordsGo]

theorem go_char {c : Char} (h : Plain c) (w cs : Str) : wordsGo .no (some w) (c :: cs) = wordsGo .no (some (w ++ [c])) cs := by
  obtain ⟨h1, h2, h3, h4, h5⟩ := h
  simp [wordsGo, h1, h2, h3, h4, h5]

theorem go_plain : ∀ (p w cs : Str), (∀ c ∈ p, Plain c) → wordsGo .no (some w) (p ++ cs) = wordsGo .no (some (w ++ p)) cs := by
  intro p
  induction p with
  | nil => intro w cs _; simp
  | cons c p ih =>
    intro w cs h
    rw [List.cons_append, go_char (h c List.mem_cons_self), ih _ _ (fun c hc => h c (List.mem_cons_of_mem _ hc))]
    simp

theorem go_start {p : Str} (h : PlainWord p) (cs : Str) : wordsGo .no none (p ++ cs) = wordsGo .no (some p) cs := by
  obtain ⟨h1, h2, h3⟩ := h
  cases p with
  | nil => exact absurd rfl h1
  | cons c p =>
    obtain ⟨a1, a2, a3, a4, a5⟩ := h2 c List.mem_cons_self
    have a6 := h3 c rfl
    have : wordsGo .no none (c :: (p ++ cs)) = wordsGo .no (some [c]) (p ++ cs) := by
      simp [wordsGo, a1, a2, a3, a4, a5, a6]
    rw [List.cons_append, this, go_plain p _ _ (fun c hc => h2 c (List.mem_cons_of_mem _ hc))]
    simp

theorem go_blank (w cs : Str) : wordsGo .no (some w) (' ' :: cs) = (wordsGo .no none cs).map (w :: ·) := by
  simp [wordsGo, isBlank]

theorem go_single : ∀ (p w cs : Str), '\'' ∉ p → wordsGo .single (some w) (p ++ '\'' :: cs) = wordsGo .no (some (w ++ p)) cs := by
  intro p
  induction p with
  | nil => intro w cs _; simp [wordsGo]
  | cons c p ih =>
    intro w cs h
    simp only [List.mem_cons, not_or] at h
    have hc : ¬ c = '\'' := fun e => h.1 e.symm
    have : wordsGo .single (some w) (c :: (p ++ '\'' :: cs)) = wordsGo .single (some (w ++ [c])) (p ++ '\'' :: cs) := by
      simp [wordsGo, hc]
    rw [List.cons_append, this, ih _ _ h.2]
    simp

theorem go_lead : ∀ (ps : List Str) (rest : Str), (∀ p ∈ ps, PlainWord p) →
    wordsGo .no none (ps.flatMap (fun p => p ++ [' ']) ++ rest) = (wordsGo .no none rest).map (ps ++ ·) := by
  intro ps
  induction ps with
  | nil => intro rest _; simp
  | cons p ps ih =>
    intro rest h
    rw [List.flatMap_cons, List.append_assoc, List.append_assoc, go_start (h p List.mem_cons_self), List.singleton_append, go_blank,
      ih _ (fun p hp => h p (List.mem_cons_of_mem _ hp)), Option.map_map]
    rfl

/-! ### Lengths -/

def total (ws : List Str) : Nat := (ws.map List.length).sum + ws.length

def curLen : Option Str → Nat
  | none => 0
  | some w => w.length

def bonus : Quote → Nat
  | .doubleEsc => 1
  | _ => 0

def isQuote (c : Char) : Prop := c = '\'' ∨ c = '"' ∨ c = '\\'

theorem curLen_getD (cur : Option Str) : (cur.getD []).length = curLen cur := by cases cur <;> rfl

theorem total_le : ∀ (cs : Str) (q : Quote) (cur : Option Str) (ws : List Str), wordsGo q cur cs = some ws →
    total ws ≤ curLen cur + cs.length + 1 + bonus q ∧ (q = .no → (∃ c ∈ cs, isQuote c) → total ws < curLen cur + cs.length + 1) := by
  intro cs
  induction cs with
  | nil =>
    intro q cur ws h
    refine ⟨?_, by simp⟩
    cases q <;> cases cur <;> simp [wordsGo] at h <;> subst h <;> simp [total, curLen]
  | cons c cs ih =>
    intro q cur ws h
    have happ : ∀ x : Str, curLen (some (cur.getD [] ++ x)) = curLen cur + x.length := by
      intro x; simp only [curLen, List.length_append, curLen_getD]
    have hsome : curLen (some (cur.getD [])) = curLen cur := curLen_getD cur
    cases q with
    | no =>
      rw [go_cons] at h
      split at h
      · rename_i hb
        have hnq : ¬ isQuote c := by
          rintro (rfl | rfl | rfl) <;> simp [isBlank] at hb
        cases cur with
        | none =>
          obtain ⟨h1, h2⟩ := ih _ _ _ h
          refine ⟨by simp only [bonus, List.length_cons] at *; omega, ?_⟩
          rintro _ ⟨x, hx, hq⟩
          rcases List.mem_cons.mp hx with rfl | hx
          · exact absurd hq hnq
          · have := h2 rfl ⟨x, hx, hq⟩
            simp only [List.length_cons]; omega
        | some w =>
          rw [Option.map_eq_some_iff] at h
          obtain ⟨ws', h', rfl⟩ := h
          obtain ⟨h1, h2⟩ := ih _ _ _ h'
          have ht : total (w :: ws') = w.length + 1 + total ws' := by simp [total]; omega
          refine ⟨by simp only [bonus, List.length_cons, curLen, ht] at *; omega, ?_⟩
          rintro _ ⟨x, hx, hq⟩
          rcases List.mem_cons.mp hx with rfl | hx
          · exact absurd hq hnq
          · have := h2 rfl ⟨x, hx, hq⟩
            simp only [List.length_cons, curLen, ht] at *; omega
      · split at h
        · obtain ⟨h1, _⟩ := ih _ _ _ h
          simp only [bonus, hsome, List.length_cons] at *
          exact ⟨by omega, fun _ _ => by omega⟩
        · split at h
          · obtain ⟨h1, _⟩ := ih _ _ _ h
            simp only [bonus, hsome, List.length_cons] at *
            exact ⟨by omega, fun _ _ => by omega⟩
          · split at h
            · obtain ⟨h1, _⟩ := ih _ _ _ h
              simp only [bonus, List.length_cons] at *
              exact ⟨by omega, fun _ _ => by omega⟩
            · rename_i n1 n2 n3
              split at h
              · cases h
              · obtain ⟨h1, h2⟩ := ih _ _ _ h
                simp only [bonus, happ, List.length_cons, List.length_nil] at *
                refine ⟨by omega, ?_⟩
                rintro _ ⟨x, hx, hq⟩
                rcases List.mem_cons.mp hx with rfl | hx
                · rcases hq with e | e | e
                  · exact absurd e n1
                  · exact absurd e n2
                  · exact absurd e n3
                · have := h2 trivial ⟨x, hx, hq⟩
                  omega
    | single =>
      simp only [wordsGo] at h
      refine ⟨?_, by simp⟩
      split at h
      · obtain ⟨h1, _⟩ := ih _ _ _ h
        simp only [bonus, List.length_cons] at *; omega
      · obtain ⟨h1, _⟩ := ih _ _ _ h
        simp only [bonus, happ, List.length_cons, List.length_nil] at *; omega
    | esc =>
      simp only [wordsGo] at h
      refine ⟨?_, by simp⟩
      split at h
      · obtain ⟨h1, _⟩ := ih _ _ _ h
        simp only [bonus, List.length_cons] at *; omega
      · obtain ⟨h1, _⟩ := ih _ _ _ h
        simp only [bonus, happ, List.length_cons, List.length_nil] at *; omega
    | double =>
      simp only [wordsGo] at h
      refine ⟨?_, by simp⟩
      split at h
      · obtain ⟨h1, _⟩ := ih _ _ _ h
        simp only [bonus, List.length_cons] at *; omega
      · split at h
        · obtain ⟨h1, _⟩ := ih _ _ _ h
          simp only [bonus, List.length_cons] at *; omega
        · split at h
          · cases h
          · obtain ⟨h1, _⟩ := ih _ _ _ h
            simp only [bonus, happ, List.length_cons, List.length_nil] at *; omega
    | doubleEsc =>
      simp only [wordsGo] at h
      refine ⟨?_, by simp⟩
      split at h
      · obtain ⟨h1, _⟩ := ih _ _ _ h
        simp only [bonus, List.length_cons] at *; omega
      · split at h
        · obtain ⟨h1, _⟩ := ih _ _ _ h
          simp only [bonus, happ, List.length_cons, List.length_nil] at *; omega
        · obtain ⟨h1, _⟩ := ih _ _ _ h
          simp only [bonus, happ, List.length_cons, List.length_nil] at *; omega

def blanks (cs : Str) : Nat := (cs.filter isBlank).length

/-- Without quotes: what is not in the words is blank, and nothing is special. -/
theorem noquote : ∀ (cs : Str) (cur : Option Str) (ws : List Str), (∀ c ∈ cs, ¬ isQuote c) → wordsGo .no cur cs = some ws →
    (ws.map List.length).sum + blanks cs = curLen cur + cs.length ∧ ∀ c ∈ cs, c ∉ special := by
  intro cs
  induction cs with
  | nil =>
    intro cur ws _ h
    cases cur <;> simp [wordsGo] at h <;> subst h <;> simp [blanks, curLen]
  | cons c cs ih =>
    intro cur ws hq h
    have happ : ∀ x : Str, curLen (some (cur.getD [] ++ x)) = curLen cur + x.length := by
      intro x; simp only [curLen, List.length_append, curLen_getD]
    have hq' := fun x hx => hq x (List.mem_cons_of_mem _ hx)
    have hc := hq c List.mem_cons_self
    simp only [isQuote, not_or] at hc
    rw [go_cons] at h
    simp only [hc.1, hc.2.1, hc.2.2, if_false] at h
    split at h
    · rename_i hb
      have hbl : blanks (c :: cs) = blanks cs + 1 := by simp [blanks, hb]
      have hsp : c ∉ special := by
        intro hs
        simp only [special, List.mem_cons, List.not_mem_nil, or_false] at hs
        rcases hs with rfl | rfl | rfl | rfl | rfl | rfl | rfl | rfl | rfl | rfl | rfl | rfl | rfl <;> simp [isBlank] at hb
      cases cur with
      | none =>
        obtain ⟨h1, h2⟩ := ih _ _ hq' h
        refine ⟨by simp only [hbl, List.length_cons] at *; omega, ?_⟩
        intro x hx
        rcases List.mem_cons.mp hx with rfl | hx
        · exact hsp
        · exact h2 x hx
      | some w =>
        rw [Option.map_eq_some_iff] at h
        obtain ⟨ws', h', rfl⟩ := h
        obtain ⟨h1, h2⟩ := ih _ _ hq' h'
        refine ⟨by simp only [hbl, List.length_cons, curLen, List.map_cons, List.sum_cons] at *; omega, ?_⟩
        intro x hx
        rcases List.mem_cons.mp hx with rfl | hx
        · exact hsp
        · exact h2 x hx
    · rename_i hb
      have hbl : blanks (c :: cs) = blanks cs := by simp [blanks, hb]
      split at h
      · cases h
      · rename_i hs
        obtain ⟨h1, h2⟩ := ih _ _ hq' h
        refine ⟨by simp only [hbl, happ, List.length_cons, List.length_nil] at *; omega, ?_⟩
        intro x hx
        rcases List.mem_cons.mp hx with rfl | hx
        · exact fun h => hs (.inl h)
        · exact h2 x hx

end Shell
end Coral
