import Verif.Proofs.Buffer
import Verif.Model.Coord
import Verif.Spec.Coord
import Mathlib.Tactic.Ring
import Mathlib.Tactic.Linarith

namespace Coral
open Buffer
open scoped List

theorem collinear_iff_cross2 (a b c : Pt) : collinear a b c = true ↔ cross2 a b c = 0 := by
  unfold collinear cross2
  rw [beq_iff_eq]
  constructor <;> intro h <;> linarith

/-! ### The algorithms on plain lists -/

/-- `cornerStep` on a queue. -/
def absCorner (k : Nat) (l : List Pt) (q : Pt) : List Pt × List Pt :=
  if l.getLast? = some q then ([], l.dropLast)
  else if l.length = k then (l.take 1, l.drop 1 ++ [q])
  else ([], l ++ [q])

theorem cornerStep_rep {b : Buffer Pt} {l : List Pt} (h : Rep b l) (q : Pt) :
    ∃ b', cornerStep b q = .ok ((absCorner b.n l q).1, b') ∧ b'.n = b.n ∧ Rep b' (absCorner b.n l q).2 := by
  have hn := h.npos
  by_cases hl : l = []
  · subst hl
    have he : b.isempty = true := by rw [h.isempty_iff]; rfl
    have hf : b.isfull = false := by rw [h.isfull_iff]; simp; omega
    obtain ⟨b', h1, h2, h3⟩ := push_rep h q (by simpa using hn)
    refine ⟨b', ?_, h2, ?_⟩
    · simp [cornerStep, he, hf, bind, Except.bind, pure, Except.pure, h1, absCorner]
    · have : ¬ (0 = b.n) := by omega
      simpa [absCorner, this] using h3
  · have he : b.isempty = false := by rw [h.isempty_iff]; simpa using hl
    have hp := peek_rep h hl
    have hlast : l.getLast? = some (l.getLast hl) := List.getLast?_eq_some_getLast hl
    by_cases hq : l.getLast hl = q
    · obtain ⟨b', h1, h2, h3⟩ := pop_rep h hl
      refine ⟨b', ?_, h2, ?_⟩
      · simp [cornerStep, he, hp, h1, hq, bind, Except.bind, pure, Except.pure, absCorner, hlast]
      · simpa [absCorner, hlast, hq] using h3
    · by_cases hfull : l.length = b.n
      · have hf : b.isfull = true := by rw [h.isfull_iff]; simpa using hfull
        obtain ⟨x, l', rfl⟩ : ∃ x l', l = x :: l' := List.exists_cons_of_ne_nil hl
        obtain ⟨b1, h1, h2, h3⟩ := shift_rep h
        obtain ⟨b2, h4, h5, h6⟩ := push_rep h3 q (by simp at hfull; omega)
        refine ⟨b2, ?_, by rw [h5, h2], ?_⟩
        · simp only [cornerStep, he, hp, hf, h1, bind, Except.bind, pure, Except.pure, absCorner, hlast, hfull]
          simp [hq, h4]
        · simp only [absCorner, hlast, hfull]
          simpa [hq] using h6
      · have hf : b.isfull = false := by rw [h.isfull_iff]; simpa using hfull
        obtain ⟨b2, h4, h5, h6⟩ := push_rep h q (by have := h.hl; omega)
        refine ⟨b2, ?_, h5, ?_⟩
        · simp only [cornerStep, he, hp, hf, bind, Except.bind, pure, Except.pure, absCorner, hlast, hfull]
          simp [hq, h4]
        · simp only [absCorner, hlast, hfull]
          simpa [hq] using h6

theorem drain_rep {b : Buffer Pt} {l : List Pt} (h : Rep b l) (fuel : Nat) (hf : l.length ≤ fuel) :
    drain b fuel = l := by
  induction l generalizing b fuel with
  | nil =>
    have he : b.isempty = true := by rw [h.isempty_iff]; rfl
    cases fuel <;> simp [drain, he]
  | cons x l ih =>
    have he : b.isempty = false := by rw [h.isempty_iff]; rfl
    obtain ⟨b', h1, _, h3⟩ := shift_rep h
    cases fuel with
    | zero => simp at hf
    | succ fuel => simp [drain, he, h1, ih h3 fuel (by simpa using hf)]

/-- `openLoop` on a queue. -/
def absOpen (k : Nat) (l : List Pt) (p q : Pt) : List Pt → List Pt
  | [] => l ++ [q]
  | r :: s =>
    if r = q then absOpen k l p q s
    else if !collinear p q r then (absCorner k l q).1 ++ absOpen k (absCorner k l q).2 q r s
    else absOpen k l q r s

theorem openLoop_rep {b : Buffer Pt} {l : List Pt} (h : Rep b l) (p q : Pt) (s : List Pt) :
    openLoop b p q none s = (absOpen b.n l p q s, none) := by
  induction s generalizing b l p q with
  | nil => simp [openLoop, absOpen, drain_rep h b.n h.hl]
  | cons r s ih =>
    simp only [openLoop, absOpen]
    split
    · exact ih h p q
    · split
      · obtain ⟨b', h1, h2, h3⟩ := cornerStep_rep h q
        simp only [h1, ih h3, Gen.yields, h2]
      · exact ih h q r

theorem openNoSlit_eq {k : Nat} (hk : ∃ j, k = 2 ^ j) (p q : Pt) (s : List Pt) :
    openNoSlit (p :: q :: s, none) k = (p :: absOpen k [] p q s, none) := by
  obtain ⟨b, h1, h2, h3⟩ := init_rep (α := Pt) hk
  simp [openNoSlit, h1, openLoop_rep h3, Gen.yields, h2]

/-- Whatever the buffer holds, the rest of the output is the end of a subsequence of the path. -/
theorem absOpen_sublist (k : Nat) (hk : 0 < k) (out l : List Pt) (p q : Pt) (s seen : List Pt)
    (h : (out ++ l ++ [q]) <+ seen) :
    ∃ mid, absOpen k l p q s = mid ++ [(q :: s).getLast (by simp)] ∧
      (out ++ absOpen k l p q s) <+ (seen ++ s) := by
  induction s generalizing out l p q seen with
  | nil => exact ⟨l, rfl, by simpa [absOpen, ← List.append_assoc] using h⟩
  | cons r s ih =>
    simp only [absOpen]
    split
    · rename_i hr
      subst hr
      obtain ⟨mid, h1, h2⟩ := ih out l p r (seen ++ [r]) (h.trans (by simp))
      refine ⟨mid, ?_, by simpa using h2⟩
      rw [h1]
      cases s <;> simp
    · split
      · have key : (out ++ (absCorner k l q).1 ++ (absCorner k l q).2 ++ [r]) <+ (seen ++ [r]) := by
          apply List.Sublist.append _ (List.Sublist.refl _)
          refine List.Sublist.trans ?_ h
          rw [List.append_assoc, List.append_assoc]
          apply List.Sublist.append (List.Sublist.refl _)
          unfold absCorner
          split
          · simp only [List.nil_append]
            exact (List.dropLast_sublist l).trans (by simp)
          · split
            · rw [← List.append_assoc, List.take_append_drop]
            · simp
        obtain ⟨mid, h1, h2⟩ := ih (out ++ (absCorner k l q).1) (absCorner k l q).2 q r (seen ++ [r]) key
        refine ⟨(absCorner k l q).1 ++ mid, ?_, by simpa using h2⟩
        rw [h1]
        simp
      · have key : (out ++ l ++ [r]) <+ (seen ++ [r]) := by
          apply List.Sublist.append _ (List.Sublist.refl _)
          exact List.Sublist.trans (by simp) h
        obtain ⟨mid, h1, h2⟩ := ih out l q r (seen ++ [r]) key
        refine ⟨mid, ?_, by simpa using h2⟩
        rw [h1]
        simp

/-! ### Paths without slits -/

theorem turns_cons_destutter' (p q r : Pt) (s : List Pt) :
    turns (p :: q :: List.destutter' (· ≠ ·) r s) =
      (if cross2 p q r ≠ 0 then [q] else []) ++ turns (q :: List.destutter' (· ≠ ·) r s) := by
  obtain ⟨l, hl⟩ : ∃ l, List.destutter' (· ≠ ·) r s = r :: l := by
    induction s with
    | nil => exact ⟨[], rfl⟩
    | cons a s ih =>
      by_cases h : r ≠ a
      · exact ⟨_, List.destutter'_cons_pos s h⟩
      · rw [List.destutter'_cons_neg s h]; exact ih
  rw [hl]
  rfl

theorem absOpen_turns (k : Nat) (hk : 0 < k) (l : List Pt) (p q : Pt) (s : List Pt)
    (h : List.IsChain (· ≠ ·) (l ++ turns (p :: List.destutter' (· ≠ ·) q s))) :
    absOpen k l p q s = l ++ turns (p :: List.destutter' (· ≠ ·) q s) ++ [(q :: s).getLast (by simp)] := by
  induction s generalizing l p q with
  | nil => simp [absOpen, turns]
  | cons r s ih =>
    simp only [absOpen]
    split
    · rename_i hr
      subst hr
      rw [List.destutter'_cons_neg s (by simp)] at h ⊢
      rw [ih l p r h]
      congr 2
    · rename_i hr
      rw [List.destutter'_cons_pos s (Ne.symm hr), turns_cons_destutter'] at h ⊢
      split
      · rename_i hc
        have hc' : cross2 p q r ≠ 0 := by
          intro h0
          rw [(collinear_iff_cross2 p q r).mpr h0] at hc
          simp at hc
        rw [if_pos hc'] at h ⊢
        have hq : l.getLast? ≠ some q := by
          intro hq
          obtain ⟨l', rfl⟩ : ∃ l', l = l' ++ [q] := by
            obtain ⟨hne, he⟩ := List.getLast?_eq_some_iff.mp hq
            exact ⟨hne, he⟩
          have := (List.isChain_append.mp h).2.2 q (by simp) q (by simp)
          exact this rfl
        simp only [absCorner, hq, if_false]
        split
        · rename_i hlen
          have hl : l ≠ [] := by intro h0; subst h0; simp at hlen; omega
          obtain ⟨x, l', rfl⟩ := List.exists_cons_of_ne_nil hl
          simp only [List.take_succ_cons, List.take_zero, List.drop_succ_cons, List.drop_zero]
          rw [ih]
          · simp
          · rw [List.append_assoc]
            exact List.IsChain.of_cons (by simpa using h)
        · simp only [List.nil_append]
          rw [ih]
          · simp
          · simpa using h
      · rename_i hc
        have hc' : ¬ cross2 p q r ≠ 0 := by
          intro h0
          apply hc
          have := mt (collinear_iff_cross2 p q r).mp h0
          simpa using this
        rw [if_neg hc', List.nil_append] at h ⊢
        rw [ih l q r h]
        simp

theorem turns_head_dup (p q : Pt) (s : List Pt) :
    turns (p :: List.destutter' (· ≠ ·) q s) = turns (noRepeats (p :: q :: s)) := by
  unfold noRepeats
  rw [List.destutter_cons']
  by_cases h : p ≠ q
  · rw [List.destutter'_cons_pos s h]
  · rw [List.destutter'_cons_neg s h]
    have h : p = q := by simpa using h
    subst h
    induction s with
    | nil => rfl
    | cons r s ih =>
      by_cases hr : p ≠ r
      · rw [List.destutter'_cons_pos s hr, turns_cons_destutter']
        simp [cross2]
      · rw [List.destutter'_cons_neg s hr]
        exact ih

/-! ### Closed paths -/

/-- `cornerStep2` on queues. -/
def absCorner2 (k : Nat) (l1 l2 : List Pt) (q : Pt) : List Pt × List Pt × List Pt :=
  if l1.getLast? = some q then ([], l1.dropLast, l2)
  else if l1.length = k then
    if l2.length = k then (l1.take 1, l1.drop 1 ++ [q], l2)
    else ([], l1.drop 1 ++ [q], l2 ++ l1.take 1)
  else ([], l1 ++ [q], l2)

theorem cornerStep2_rep {b1 b2 : Buffer Pt} {l1 l2 : List Pt} (h : Rep b1 l1) (g : Rep b2 l2) (hnn : b2.n = b1.n)
    (q : Pt) :
    ∃ b1' b2', cornerStep2 b1 b2 q = .ok ((absCorner2 b1.n l1 l2 q).1, b1', b2') ∧ b1'.n = b1.n ∧ b2'.n = b1.n ∧
      Rep b1' (absCorner2 b1.n l1 l2 q).2.1 ∧ Rep b2' (absCorner2 b1.n l1 l2 q).2.2 := by
  have hn := h.npos
  by_cases hl : l1 = []
  · subst hl
    have he : b1.isempty = true := by rw [h.isempty_iff]; rfl
    have hf : b1.isfull = false := by rw [h.isfull_iff]; simp; omega
    obtain ⟨b', h1, h2, h3⟩ := push_rep h q (by simpa using hn)
    have : ¬ (0 = b1.n) := by omega
    refine ⟨b', b2, ?_, h2, hnn, ?_, ?_⟩
    · simp [cornerStep2, he, hf, bind, Except.bind, pure, Except.pure, h1, absCorner2, this]
    · simpa [absCorner2, this] using h3
    · simpa [absCorner2, this] using g
  · have he : b1.isempty = false := by rw [h.isempty_iff]; simpa using hl
    have hp := peek_rep h hl
    have hlast : l1.getLast? = some (l1.getLast hl) := List.getLast?_eq_some_getLast hl
    by_cases hq : l1.getLast hl = q
    · obtain ⟨b', h1, h2, h3⟩ := pop_rep h hl
      refine ⟨b', b2, ?_, h2, hnn, ?_, ?_⟩
      · simp [cornerStep2, he, hp, h1, hq, bind, Except.bind, pure, Except.pure, absCorner2, hlast]
      · simpa [absCorner2, hlast, hq] using h3
      · simpa [absCorner2, hlast, hq] using g
    · by_cases hfull : l1.length = b1.n
      · have hf : b1.isfull = true := by rw [h.isfull_iff]; simpa using hfull
        obtain ⟨x, l', rfl⟩ : ∃ x l', l1 = x :: l' := List.exists_cons_of_ne_nil hl
        obtain ⟨c1, h1, h2, h3⟩ := shift_rep h
        obtain ⟨c2, h4, h5, h6⟩ := push_rep h3 q (by simp at hfull; omega)
        by_cases hfull2 : l2.length = b1.n
        · have hf2 : b2.isfull = true := by rw [g.isfull_iff, hnn]; simpa using hfull2
          refine ⟨c2, b2, ?_, by rw [h5, h2], hnn, ?_, ?_⟩
          · simp only [cornerStep2, he, hp, hf, hf2, h1, bind, Except.bind, pure, Except.pure, absCorner2, hlast,
              hfull, hfull2]
            simp [hq, h4]
          · simp only [absCorner2, hlast, hfull, hfull2]
            simpa [hq] using h6
          · simp only [absCorner2, hlast, hfull, hfull2]
            simpa [hq] using g
        · have hf2 : b2.isfull = false := by rw [g.isfull_iff, hnn]; simpa using hfull2
          obtain ⟨d, g1, g2, g3⟩ := push_rep g x (by have := g.hl; omega)
          refine ⟨c2, d, ?_, by rw [h5, h2], by rw [g2, hnn], ?_, ?_⟩
          · simp only [cornerStep2, he, hp, hf, hf2, h1, bind, Except.bind, pure, Except.pure, absCorner2, hlast,
              hfull, hfull2]
            simp [hq, h4, g1]
          · simp only [absCorner2, hlast, hfull, hfull2]
            simpa [hq] using h6
          · simp only [absCorner2, hlast, hfull, hfull2]
            simpa [hq] using g3
      · have hf : b1.isfull = false := by rw [h.isfull_iff]; simpa using hfull
        obtain ⟨c, h4, h5, h6⟩ := push_rep h q (by have := h.hl; omega)
        refine ⟨c, b2, ?_, h5, hnn, ?_, ?_⟩
        · simp only [cornerStep2, he, hp, hf, bind, Except.bind, pure, Except.pure, absCorner2, hlast, hfull]
          simp [hq, h4]
        · simp only [absCorner2, hlast, hfull]
          simpa [hq] using h6
        · simp only [absCorner2, hlast, hfull]
          simpa [hq] using g

/-- `seam` on queues. -/
def absSeam (l1 l2 : List Pt) (p q : Pt) : Nat → List Pt × List Pt × Pt × Pt
  | 0 => (l1, l2, p, q)
  | fuel + 1 => match l1.getLast?, l2 with
    | some p', q' :: l2' => if p' ≠ q' then (l1.dropLast, l2', p', q') else absSeam l1.dropLast l2' p' q' fuel
    | _, _ => (l1, l2, p, q)
termination_by structural fuel => fuel

theorem seam_rep {b1 b2 : Buffer Pt} {l1 l2 : List Pt} (h : Rep b1 l1) (g : Rep b2 l2) (p q : Pt) (fuel : Nat) :
    ∃ b1' b2', seam b1 b2 p q fuel = (b1', b2', (absSeam l1 l2 p q fuel).2.2.1, (absSeam l1 l2 p q fuel).2.2.2) ∧
      b1'.n = b1.n ∧ b2'.n = b2.n ∧
      Rep b1' (absSeam l1 l2 p q fuel).1 ∧ Rep b2' (absSeam l1 l2 p q fuel).2.1 := by
  induction fuel generalizing b1 b2 l1 l2 p q with
  | zero => exact ⟨b1, b2, rfl, rfl, rfl, h, g⟩
  | succ fuel ih =>
    by_cases hl : l1 = []
    · subst hl
      have he : b1.isempty = true := by rw [h.isempty_iff]; rfl
      exact ⟨b1, b2, by simp [seam, he, absSeam], rfl, rfl, by simpa [absSeam] using h, by simpa [absSeam] using g⟩
    · have he : b1.isempty = false := by rw [h.isempty_iff]; simpa using hl
      have hlast : l1.getLast? = some (l1.getLast hl) := List.getLast?_eq_some_getLast hl
      cases l2 with
      | nil =>
        have he2 : b2.isempty = true := by rw [g.isempty_iff]; rfl
        exact ⟨b1, b2, by simp [seam, he2, absSeam, hlast], rfl, rfl, by simpa [absSeam, hlast] using h,
          by simpa [absSeam, hlast] using g⟩
      | cons x l2 =>
        have he2 : b2.isempty = false := by rw [g.isempty_iff]; rfl
        obtain ⟨c, h1, h2, h3⟩ := pop_rep h hl
        obtain ⟨d, g1, g2, g3⟩ := shift_rep g
        by_cases hx : l1.getLast hl = x
        · obtain ⟨c', d', k1, k2, k3, k4, k5⟩ := ih h3 g3 (l1.getLast hl) x
          refine ⟨c', d', ?_, by rw [k2, h2], by rw [k3, g2], ?_, ?_⟩
          · simp only [hx] at k1
            simp [seam, he, he2, h1, g1, absSeam, hlast, hx, k1]
          · simp only [hx] at k4
            simpa [absSeam, hlast, hx] using k4
          · simp only [hx] at k5
            simpa [absSeam, hlast, hx] using k5
        · refine ⟨c, d, ?_, h2, g2, ?_, ?_⟩
          · simp [seam, he, he2, h1, g1, absSeam, hlast, hx]
          · simpa [absSeam, hlast, hx] using h3
          · simpa [absSeam, hlast, hx] using g3

/-- `closedTail` on queues. -/
def absTail (k : Nat) (l1 l2 : List Pt) (p q : Pt) : List Pt :=
  (absSeam l1 l2 p q k).1 ++ [(absSeam l1 l2 p q k).2.2.1, (absSeam l1 l2 p q k).2.2.2] ++ (absSeam l1 l2 p q k).2.1

theorem closedTail_rep {b1 b2 : Buffer Pt} {l1 l2 : List Pt} (h : Rep b1 l1) (g : Rep b2 l2) (p q r : Pt) :
    closedTail b1 b2 p q (some r) = (absTail b1.n l1 l2 p q ++ [r], none) := by
  obtain ⟨c, d, k1, k2, k3, k4, k5⟩ := seam_rep h g p q b1.n
  simp only [closedTail, k1, absTail]
  rw [drain_rep k4 _ k4.hl, drain_rep k5 _ k5.hl]

/-- `closedLoop` on queues. -/
def absClosed (k : Nat) (l1 l2 : List Pt) (p q last : Pt) : List Pt → List Pt
  | [] => absTail k l1 l2 p q ++ [last]
  | r :: s =>
    if r = q then absClosed k l1 l2 p q r s
    else if !collinear p q r then
      (absCorner2 k l1 l2 q).1 ++ absClosed k (absCorner2 k l1 l2 q).2.1 (absCorner2 k l1 l2 q).2.2 q r r s
    else absClosed k l1 l2 q r r s

theorem closedLoop_rep {b1 b2 : Buffer Pt} {l1 l2 : List Pt} (h : Rep b1 l1) (g : Rep b2 l2) (hnn : b2.n = b1.n)
    (p q : Pt) (last : Option Pt) (last' : Pt) (s : List Pt) (hl : last = some last' ∨ s ≠ []) :
    closedLoop b1 b2 p q last none s = (absClosed b1.n l1 l2 p q last' s, none) := by
  induction s generalizing b1 b2 l1 l2 p q last last' with
  | nil =>
    have hl : last = some last' := by simpa using hl
    simp [closedLoop, absClosed, hl, closedTail_rep h g]
  | cons r s ih =>
    simp only [closedLoop, absClosed]
    split
    · exact ih h g hnn p q _ _ (Or.inl rfl)
    · split
      · obtain ⟨c, d, k1, k2, k3, k4, k5⟩ := cornerStep2_rep h g hnn q
        simp only [k1, ih k4 k5 (by rw [k2, k3]) q r (some r) r (Or.inl rfl), Gen.yields, k2]
      · exact ih h g hnn q r _ _ (Or.inl rfl)

theorem closedNoSlit_eq {k : Nat} (hk : ∃ j, k = 2 ^ j) (p q r : Pt) (s : List Pt) :
    closedNoSlit (p :: q :: r :: s, none) k = (p :: absClosed k [] [] p q p (r :: s), none) := by
  obtain ⟨b, h1, h2, h3⟩ := init_rep (α := Pt) hk
  simp only [closedNoSlit, h1]
  rw [closedLoop_rep h3 h3 rfl p q none p (r :: s) (Or.inr (by simp)), h2]
  rfl

theorem absSeam_mem (S : List Pt) (fuel : Nat) (l1 l2 : List Pt) (p q : Pt) (h1 : ∀ x ∈ l1, x ∈ S)
    (h2 : ∀ x ∈ l2, x ∈ S) (hp : p ∈ S) (hq : q ∈ S) :
    (∀ x ∈ (absSeam l1 l2 p q fuel).1, x ∈ S) ∧ (∀ x ∈ (absSeam l1 l2 p q fuel).2.1, x ∈ S) ∧
      (absSeam l1 l2 p q fuel).2.2.1 ∈ S ∧ (absSeam l1 l2 p q fuel).2.2.2 ∈ S := by
  induction fuel generalizing l1 l2 p q with
  | zero => exact ⟨h1, h2, hp, hq⟩
  | succ fuel ih =>
    simp only [absSeam]
    split
    · rename_i _ _ p' q' l2' hlast
      have hp' : p' ∈ S := h1 _ (List.mem_of_getLast? hlast)
      have hq' : q' ∈ S := h2 _ (by simp)
      have h1' : ∀ x ∈ l1.dropLast, x ∈ S := fun x hx => h1 x ((List.dropLast_sublist l1).subset hx)
      have h2' : ∀ x ∈ l2', x ∈ S := fun x hx => h2 x (by simp [hx])
      split
      · exact ⟨h1', h2', hp', hq'⟩
      · exact ih _ _ _ _ h1' h2' hp' hq'
    · exact ⟨h1, h2, hp, hq⟩

theorem absClosed_mem (S : List Pt) (k : Nat) (l1 l2 : List Pt) (p q last : Pt) (s : List Pt)
    (h1 : ∀ x ∈ l1, x ∈ S) (h2 : ∀ x ∈ l2, x ∈ S) (hp : p ∈ S) (hq : q ∈ S) (hlast : last ∈ S)
    (hs : ∀ x ∈ s, x ∈ S) : ∀ x ∈ absClosed k l1 l2 p q last s, x ∈ S := by
  induction s generalizing l1 l2 p q last with
  | nil =>
    obtain ⟨g1, g2, g3, g4⟩ := absSeam_mem S k l1 l2 p q h1 h2 hp hq
    intro x hx
    simp only [absClosed, absTail, List.mem_append, List.mem_cons, List.not_mem_nil, or_false] at hx
    rcases hx with ((hx | hx | hx) | hx) | hx
    · exact g1 x hx
    · rw [hx]; exact g3
    · rw [hx]; exact g4
    · exact g2 x hx
    · rw [hx]; exact hlast
  | cons r s ih =>
    have hr : r ∈ S := hs r (by simp)
    have hs' : ∀ x ∈ s, x ∈ S := fun x hx => hs x (by simp [hx])
    simp only [absClosed]
    split
    · exact ih _ _ _ _ _ h1 h2 hp hq hr hs'
    · split
      · have key : (∀ x ∈ (absCorner2 k l1 l2 q).1, x ∈ S) ∧ (∀ x ∈ (absCorner2 k l1 l2 q).2.1, x ∈ S) ∧
            (∀ x ∈ (absCorner2 k l1 l2 q).2.2, x ∈ S) := by
          have ht : ∀ x ∈ l1.take 1, x ∈ S := fun x hx => h1 x (List.mem_of_mem_take hx)
          have hd : ∀ x ∈ l1.drop 1 ++ [q], x ∈ S := by
            intro x hx
            rcases List.mem_append.mp hx with hx | hx
            · exact h1 x (List.mem_of_mem_drop hx)
            · simp only [List.mem_singleton] at hx; rw [hx]; exact hq
          unfold absCorner2
          split
          · exact ⟨by simp, fun x hx => h1 x ((List.dropLast_sublist l1).subset hx), h2⟩
          · split
            · split
              · exact ⟨ht, hd, h2⟩
              · refine ⟨by simp, hd, ?_⟩
                intro x hx
                rcases List.mem_append.mp hx with hx | hx
                · exact h2 x hx
                · exact ht x hx
            · refine ⟨by simp, ?_, h2⟩
              intro x hx
              rcases List.mem_append.mp hx with hx | hx
              · exact h1 x hx
              · simp only [List.mem_singleton] at hx; rw [hx]; exact hq
        intro x hx
        rcases List.mem_append.mp hx with hx | hx
        · exact key.1 x hx
        · exact ih _ _ _ _ _ key.2.1 key.2.2 hq hr hr hs' x hx
      · exact ih _ _ _ _ _ h1 h2 hq hr hr hs'

theorem absClosed_last (k : Nat) (l1 l2 : List Pt) (p q last : Pt) (s : List Pt) :
    ∃ mid, absClosed k l1 l2 p q last s = mid ++ [(last :: s).getLast (by simp)] := by
  induction s generalizing l1 l2 p q last with
  | nil => exact ⟨_, rfl⟩
  | cons r s ih =>
    simp only [absClosed]
    have hl : (last :: r :: s).getLast (by simp) = (r :: s).getLast (by simp) := by simp
    rw [hl]
    split
    · exact ih _ _ _ _ _
    · split
      · obtain ⟨mid, h⟩ := ih (absCorner2 k l1 l2 q).2.1 (absCorner2 k l1 l2 q).2.2 q r r
        exact ⟨_, by rw [h, ← List.append_assoc]⟩
      · exact ih _ _ _ _ _

/-- The last two points of a path without repetitions that starts with `p, q`. -/
def lastTwo (p q : Pt) : List Pt → Pt × Pt
  | [] => (p, q)
  | r :: s => if r = q then lastTwo p q s else lastTwo q r s

theorem absClosed_few (k : Nat) (hk : 0 < k) (l : List Pt) (p q last : Pt) (s : List Pt)
    (h : List.IsChain (· ≠ ·) (l ++ turns (p :: List.destutter' (· ≠ ·) q s)))
    (hlen : (l ++ turns (p :: List.destutter' (· ≠ ·) q s)).length ≤ k) :
    absClosed k l [] p q last s = l ++ turns (p :: List.destutter' (· ≠ ·) q s) ++
      [(lastTwo p q s).1, (lastTwo p q s).2, (last :: s).getLast (by simp)] := by
  induction s generalizing l p q last with
  | nil =>
    have : absSeam l [] p q k = (l, [], p, q) := by
      cases k with
      | zero => rfl
      | succ k => simp [absSeam]
    simp [absClosed, absTail, this, turns, lastTwo]
  | cons r s ih =>
    simp only [absClosed, lastTwo]
    have hl : (last :: r :: s).getLast (by simp) = (r :: s).getLast (by simp) := by simp
    rw [hl]
    split
    · rename_i hr
      subst hr
      rw [List.destutter'_cons_neg s (by simp)] at h hlen ⊢
      exact ih l p r r h hlen
    · rename_i hr
      rw [List.destutter'_cons_pos s (Ne.symm hr), turns_cons_destutter'] at h hlen ⊢
      split
      · rename_i hc
        have hc' : cross2 p q r ≠ 0 := by
          intro h0
          rw [(collinear_iff_cross2 p q r).mpr h0] at hc
          simp at hc
        rw [if_pos hc'] at h hlen ⊢
        have hq : l.getLast? ≠ some q := by
          intro hq
          obtain ⟨l', rfl⟩ : ∃ l', l = l' ++ [q] := by
            obtain ⟨hne, he⟩ := List.getLast?_eq_some_iff.mp hq
            exact ⟨hne, he⟩
          have := (List.isChain_append.mp h).2.2 q (by simp) q (by simp)
          exact this rfl
        have hlk : ¬ l.length = k := by simp at hlen; omega
        simp only [absCorner2, hq, if_false, hlk]
        rw [List.nil_append, ih]
        · simp
        · simpa using h
        · simpa using hlen
      · rename_i hc
        have hc' : ¬ cross2 p q r ≠ 0 := by
          intro h0
          apply hc
          have := mt (collinear_iff_cross2 p q r).mp h0
          simpa using this
        rw [if_neg hc', List.nil_append] at h hlen ⊢
        exact ih l q r r h hlen

theorem lastTwo_snd (p q : Pt) (s : List Pt) : (lastTwo p q s).2 = (q :: s).getLast (by simp) := by
  induction s generalizing p q with
  | nil => rfl
  | cons r s ih =>
    simp only [lastTwo]
    split
    · rename_i h; subst h; rw [ih]; simp
    · rw [ih]; simp

/-- `lastTwo` are the last two points of the path without repetitions (or the path stays at one point). -/
theorem lastTwo_spec (p q : Pt) (s : List Pt) :
    (∃ ini, noRepeats (p :: q :: s) = ini ++ [(lastTwo p q s).1, (lastTwo p q s).2]) ∨
      (noRepeats (p :: q :: s) = [p] ∧ (lastTwo p q s) = (p, p)) := by
  have gen : ∀ (s : List Pt) (pre : List Pt) (p q : Pt), p ≠ q →
      ∃ ini, pre ++ p :: List.destutter' (· ≠ ·) q s = ini ++ [(lastTwo p q s).1, (lastTwo p q s).2] := by
    intro s
    induction s with
    | nil => intro pre p q _; exact ⟨pre, rfl⟩
    | cons r s ih =>
      intro pre p q hpq
      simp only [lastTwo]
      split
      · rename_i h; subst h
        rw [List.destutter'_cons_neg s (by simp)]
        exact ih pre p r hpq
      · rename_i h
        rw [List.destutter'_cons_pos s (Ne.symm h)]
        have := ih (pre ++ [p]) q r (Ne.symm h)
        simpa using this
  unfold noRepeats
  rw [List.destutter_cons']
  by_cases h : p ≠ q
  · rw [List.destutter'_cons_pos s h]
    left
    simpa using gen s [] p q h
  · have h' : p = q := by simpa using h
    subst h'
    rw [List.destutter'_cons_neg s h]
    clear h
    induction s with
    | nil => right; simp [lastTwo]
    | cons r s ih =>
      simp only [lastTwo]
      by_cases hr : r = p
      · subst hr
        rw [if_pos rfl, List.destutter'_cons_neg s (by simp)]
        exact ih
      · rw [if_neg hr, List.destutter'_cons_pos s (Ne.symm hr)]
        left
        simpa using gen s [] p r (Ne.symm hr)

end Coral
