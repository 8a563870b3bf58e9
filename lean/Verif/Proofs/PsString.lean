import Verif.Spec.Vector
import Mathlib.Tactic.Linarith

/-! Facts about the scanner of string literals. -/
namespace Coral
namespace PS
open Vector

/-- The open parentheses after some text. -/
def nest : Nat → List Char → Option Nat
  | d, [] => some d
  | d, c :: cs =>
    if c = '(' then nest (d + 1) cs
    else if c = ')' then
      match d with
      | 0 => none
      | d + 1 => nest d cs
    else nest d cs

theorem nest_iff (t : List Char) : ∀ d e : Nat, nest d t = some e ↔
    (t.count '(' + d = t.count ')' + e ∧ ∀ p, p <+: t → p.count ')' ≤ p.count '(' + d) := by
  induction t with
  | nil =>
    intro d e
    simp only [nest, Option.some.injEq, List.count_nil, Nat.zero_add, List.prefix_nil, forall_eq, Nat.zero_le, and_true]
  | cons c t ih =>
    intro d e
    have hpre : ∀ P : List Char → Prop, (∀ p, p <+: c :: t → P p) ↔ (P [] ∧ ∀ p, p <+: t → P (c :: p)) := by
      intro P
      constructor
      · intro h
        exact ⟨h [] (List.nil_prefix), fun p hp => h _ ((List.prefix_cons_inj c).2 hp)⟩
      · rintro ⟨h1, h2⟩ p hp
        cases p with
        | nil => exact h1
        | cons a p =>
          rw [List.cons_prefix_cons] at hp
          obtain ⟨rfl, hp⟩ := hp
          exact h2 p hp
    rw [hpre]
    by_cases h1 : c = '('
    · subst h1
      simp only [nest, if_true, ih]
      simp only [List.count_cons_self, List.count_nil, Nat.zero_le, true_and, Nat.zero_add]
      have : ∀ p : List Char, ('(' :: p).count ')' = p.count ')' := fun p => by simp
      simp only [this]
      constructor
      · rintro ⟨a, b⟩
        exact ⟨by omega, fun p hp => by have := b p hp; omega⟩
      · rintro ⟨a, b⟩
        exact ⟨by omega, fun p hp => by have := b p hp; omega⟩
    · by_cases h2 : c = ')'
      · subst h2
        have : ∀ p : List Char, (')' :: p).count '(' = p.count '(' := fun p => by simp
        simp only [List.count_cons_self, List.count_nil, Nat.zero_le, true_and, this]
        cases d with
        | zero =>
          simp only [nest]
          constructor
          · intro h; simp at h
          · rintro ⟨_, b⟩
            have := b [] List.nil_prefix
            simp at this
        | succ d =>
          have e1 : nest (d + 1) (')' :: t) = nest d t := by simp [nest]
          rw [e1, ih]
          constructor
          · rintro ⟨a, b⟩
            exact ⟨by omega, fun p hp => by have := b p hp; omega⟩
          · rintro ⟨a, b⟩
            exact ⟨by omega, fun p hp => by have := b p hp; omega⟩
      · have e1 : nest d (c :: t) = nest d t := by simp [nest, h1, h2]
        have e2 : ∀ p : List Char, (c :: p).count '(' = p.count '(' := fun p => by simp [h1]
        have e3 : ∀ p : List Char, (c :: p).count ')' = p.count ')' := fun p => by simp [h2]
        rw [e1, ih]
        simp only [e2, e3, List.count_nil, Nat.zero_le, true_and]

theorem balanced_iff (t : List Char) : Balanced t ↔ nest 0 t = some 0 := by
  rw [nest_iff, Balanced]; simp

theorem scan_plain (rest : List Char) : ∀ (t : List Char) (d : Nat), '\\' ∉ t → '\r' ∉ t → nest d t = some 0 →
    scanStr .plain d (t ++ ')' :: rest) = some (t, rest) := by
  intro t
  induction t with
  | nil =>
    intro d _ _ h
    simp only [nest, Option.some.injEq] at h
    subst h
    simp [scanStr]
  | cons c t ih =>
    intro d h1 h2 h3
    simp only [List.mem_cons, not_or] at h1 h2
    have h1' : ¬ c = '\\' := fun h => h1.1 h.symm
    have h2' : ¬ c = '\r' := fun h => h2.1 h.symm
    by_cases e1 : c = '('
    · subst e1
      simp only [nest, if_true] at h3
      simp [scanStr, ih (d + 1) h1.2 h2.2 h3]
    · by_cases e2 : c = ')'
      · subst e2
        cases d with
        | zero => simp [nest] at h3
        | succ d =>
          have h3' : nest d t = some 0 := by simpa [nest] using h3
          simp [scanStr, ih d h1.2 h2.2 h3']
      · have h3' : nest d t = some 0 := by simpa [nest, e1, e2] using h3
        simp [scanStr, ih d h1.2 h2.2 h3', h1', h2', e1, e2]

/-- Characters that a state owes. -/
def owed : ScanSt → Nat
  | .oct _ _ => 1
  | _ => 0

/-- A character that is taken as it is. -/
def oneChar (c : Char) (d : Nat) (s : List Char) : Option (List Char × List Char) :=
  if c = '\\' then scanStr .esc d s
  else if c = '(' then (scanStr .plain (d + 1) s).map (fun r => (c :: r.1, r.2))
  else if c = ')' then
    (match d with
    | 0 => some ([], s)
    | d + 1 => (scanStr .plain d s).map (fun r => (c :: r.1, r.2)))
  else if c = '\r' then (scanStr .cr d s).map (fun r => ('\n' :: r.1, r.2))
  else (scanStr .plain d s).map (fun r => (c :: r.1, r.2))

theorem scan_back : ∀ (s : List Char) (st : ScanSt) (d : Nat) (u r : List Char), scanStr st d s = some (u, r) →
    ∃ w, s = w ++ ')' :: r ∧ u.length ≤ w.length + owed st ∧ (st ≠ .esc → '\\' ∈ w → u.length < w.length + owed st) ∧
      (st = .plain ∨ st = .cr → '\\' ∉ w → '\r' ∉ u ∧ nest d w = some 0) := by
  intro s
  induction s with
  | nil => intro st d u r h; cases st <;> simp [scanStr] at h
  | cons c s ih =>
    intro st d u r h
    -- one character that is taken as it is, in the states other than `esc`
    have main : ∀ (u1 : List Char), oneChar c d s = some (u1, r) →
        ∃ w, c :: s = w ++ ')' :: r ∧ u1.length ≤ w.length ∧ ('\\' ∈ w → u1.length < w.length) ∧
          ('\\' ∉ w → '\r' ∉ u1 ∧ nest d w = some 0) := by
      intro u1 h
      unfold oneChar at h
      split at h
      · rename_i hc
        obtain ⟨w, hw, hl, _⟩ := ih _ _ _ _ h
        simp only [owed, Nat.add_zero] at hl
        refine ⟨c :: w, by rw [hw]; rfl, by simp only [List.length_cons]; omega, fun _ => by simp only [List.length_cons]; omega, fun hn => ?_⟩
        exact absurd (by rw [hc]; exact List.mem_cons_self) hn
      · rename_i hc
        have hstep : ∀ (st' : ScanSt) (d' : Nat) (c' : Char), (st' = .plain ∨ st' = .cr) → c' ≠ '\r' → (∀ w, nest d (c :: w) = nest d' w) →
            (scanStr st' d' s).map (fun r => (c' :: r.1, r.2)) = some (u1, r) →
            ∃ w, c :: s = w ++ ')' :: r ∧ u1.length ≤ w.length ∧ ('\\' ∈ w → u1.length < w.length) ∧
              ('\\' ∉ w → '\r' ∉ u1 ∧ nest d w = some 0) := by
          intro st' d' c' hst hc' hn h
          rw [Option.map_eq_some_iff] at h
          obtain ⟨⟨u', r'⟩, h', he⟩ := h
          simp only [Prod.mk.injEq] at he
          obtain ⟨rfl, rfl⟩ := he
          obtain ⟨w, hw, hl, hs, hp⟩ := ih _ _ _ _ h'
          have ho : owed st' = 0 := by rcases hst with rfl | rfl <;> rfl
          have hne : st' ≠ .esc := by rcases hst with rfl | rfl <;> simp
          rw [ho, Nat.add_zero] at hl
          refine ⟨c :: w, by rw [hw]; rfl, by simp only [List.length_cons]; omega, fun hm => ?_, fun hm => ?_⟩
          · rw [List.mem_cons] at hm
            rcases hm with hm | hm
            · exact absurd hm.symm hc
            · have := hs hne hm
              rw [ho] at this
              simp only [List.length_cons]; omega
          · rw [List.mem_cons, not_or] at hm
            obtain ⟨a, b⟩ := hp hst hm.2
            refine ⟨?_, by rw [hn]; exact b⟩
            rw [List.mem_cons, not_or]
            exact ⟨fun h => hc' h.symm, a⟩
        split at h
        · rename_i h1
          exact hstep .plain (d + 1) c (.inl rfl) (by rw [h1]; decide) (by intro w; simp [nest, h1]) h
        · rename_i h1
          split at h
          · rename_i h2
            cases d with
            | zero =>
              simp only [Option.some.injEq, Prod.mk.injEq] at h
              obtain ⟨rfl, rfl⟩ := h
              exact ⟨[], by rw [h2]; rfl, Nat.le_refl _, by simp, by simp [nest]⟩
            | succ d => exact hstep .plain d c (.inl rfl) (by rw [h2]; decide) (by intro w; simp [nest, h2]) h
          · rename_i h2
            have hn : ∀ w, nest d (c :: w) = nest d w := by intro w; simp [nest, h1, h2]
            split at h
            · exact hstep .cr d '\n' (.inr rfl) (by decide) hn h
            · rename_i h3
              exact hstep .plain d c (.inl rfl) h3 hn h
    cases st with
    | esc =>
      simp only [scanStr] at h
      have e0 : ((.esc : ScanSt) ≠ .esc → ∀ w : List Char, '\\' ∈ w → u.length < w.length + owed .esc) := fun h => absurd rfl h
      split at h
      · obtain ⟨w, hw, hl, _⟩ := ih _ _ _ _ h
        simp only [owed] at hl
        exact ⟨c :: w, by rw [hw]; rfl, by simp only [List.length_cons, owed]; omega, fun h => absurd rfl h, by simp⟩
      · split at h
        · obtain ⟨w, hw, hl, _⟩ := ih _ _ _ _ h
          simp only [owed] at hl
          exact ⟨c :: w, by rw [hw]; rfl, by simp only [List.length_cons, owed]; omega, fun h => absurd rfl h, by simp⟩
        · split at h
          · obtain ⟨w, hw, hl, _⟩ := ih _ _ _ _ h
            simp only [owed] at hl
            exact ⟨c :: w, by rw [hw]; rfl, by simp only [List.length_cons, owed]; omega, fun h => absurd rfl h, by simp⟩
          · rw [Option.map_eq_some_iff] at h
            obtain ⟨⟨u', r'⟩, h', he⟩ := h
            simp only [Prod.mk.injEq] at he
            obtain ⟨rfl, rfl⟩ := he
            obtain ⟨w, hw, hl, _⟩ := ih _ _ _ _ h'
            simp only [owed] at hl
            exact ⟨c :: w, by rw [hw]; rfl, by simp only [List.length_cons, owed]; omega, fun h => absurd rfl h, by simp⟩
    | plain =>
      simp only [scanStr, reduceCtorEq, false_and, if_false, Option.map_id'] at h
      obtain ⟨w, h1, h2, h3, h4⟩ := main u h
      exact ⟨w, h1, h2, fun _ => h3, fun _ => h4⟩
    | cr =>
      simp only [scanStr, true_and] at h
      split at h
      · rename_i hc
        obtain ⟨w, hw, hl, hs, hp⟩ := ih _ _ _ _ h
        simp only [owed, Nat.add_zero] at hl hs
        subst hc
        refine ⟨'\n' :: w, by rw [hw]; rfl, by simp only [List.length_cons, owed]; omega, fun _ hm => ?_, fun _ hm => ?_⟩
        · simp only [List.length_cons, owed]; omega
        · rw [List.mem_cons, not_or] at hm
          obtain ⟨a, b⟩ := hp (.inl rfl) hm.2
          exact ⟨a, by simpa [nest] using b⟩
      · simp only [Option.map_id'] at h
        obtain ⟨w, h1, h2, h3, h4⟩ := main u h
        exact ⟨w, h1, h2, fun _ => h3, fun _ => h4⟩
    | oct n v =>
      have hdig : ∀ k, octDigit c = some k → c ≠ '\\' := by
        rintro k h rfl
        revert h; decide +revert
      have later : ∀ (x : Char) (h : (oneChar c d s).map (fun r => (x :: r.1, r.2)) = some (u, r)),
          ∃ w, c :: s = w ++ ')' :: r ∧ u.length ≤ w.length + owed (.oct n v) ∧
            ((.oct n v : ScanSt) ≠ .esc → '\\' ∈ w → u.length < w.length + owed (.oct n v)) ∧
            ((.oct n v : ScanSt) = .plain ∨ (.oct n v : ScanSt) = .cr → '\\' ∉ w → '\r' ∉ u ∧ nest d w = some 0) := by
        intro x h
        rw [Option.map_eq_some_iff] at h
        obtain ⟨⟨u', r'⟩, h', he⟩ := h
        simp only [Prod.mk.injEq] at he
        obtain ⟨rfl, rfl⟩ := he
        obtain ⟨w, h1, h2, h3, h4⟩ := main u' h'
        refine ⟨w, h1, by simp only [List.length_cons, owed]; omega, fun _ hm => ?_, by simp⟩
        have := h3 hm
        simp only [List.length_cons, owed]; omega
      simp only [scanStr] at h
      split at h
      · rename_i v' k heq hk
        obtain ⟨w, hw, hl, hs, _⟩ := ih _ _ _ _ h
        simp only [owed] at hl hs
        refine ⟨c :: w, by rw [hw]; rfl, by simp only [List.length_cons, owed]; omega, fun _ hm => ?_, by simp⟩
        simp only [List.length_cons, owed]; omega
      · rename_i v' k heq hk
        rw [Option.map_eq_some_iff] at h
        obtain ⟨⟨u', r'⟩, h', he⟩ := h
        simp only [Prod.mk.injEq] at he
        obtain ⟨rfl, rfl⟩ := he
        obtain ⟨w, hw, hl, hs, _⟩ := ih _ _ _ _ h'
        simp only [owed, Nat.add_zero] at hl hs
        refine ⟨c :: w, by rw [hw]; rfl, by simp only [List.length_cons, owed]; omega, fun _ hm => ?_, by simp⟩
        simp only [List.length_cons, owed]; omega
      · simp only [reduceCtorEq, false_and, if_false] at h
        exact later _ h

theorem scan_iff (t rest : List Char) : scanLit ('(' :: (t ++ ')' :: rest)) = some (t, rest) ↔ PlainString t := by
  rw [scanLit, PlainString, balanced_iff]
  constructor
  · intro h
    obtain ⟨w, hw, _, hs, hp⟩ := scan_back _ _ _ _ _ h
    have : t = w := List.append_cancel_right hw
    subst this
    have hb : '\\' ∉ t := fun hm => by
      have := hs (by simp) hm
      simp [owed] at this
    obtain ⟨a, b⟩ := hp (.inl rfl) hb
    exact ⟨b, hb, a⟩
  · rintro ⟨h1, h2, h3⟩
    exact scan_plain rest t 0 h2 h3 h1

theorem strLit_plain (t : List Char) (h : PlainString t) : strLit ('(' :: (t ++ [')'])) = some t := by
  rw [strLit, (scan_iff t []).2 h]

end PS
end Coral
