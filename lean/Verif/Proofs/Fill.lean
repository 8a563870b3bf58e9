import Verif.Proofs.Line
import Verif.Proofs.Buffer
import Mathlib.Data.List.Perm.Basic
import Mathlib.Data.List.Sort

/-! # Proofs about `scanpolygon` and `fillpolygons` -/
set_option linter.unusedSectionVars false
namespace Coral
open Buffer (pyIndex_nat pySetItem_nat)

open scoped List

/-! ### Marks -/

instance : Std.Total (markLE) := ⟨fun a b => by
  unfold markLE
  rcases lt_trichotomy a.1 b.1 with h | h | h
  · exact .inl (.inl h)
  · cases ha : a.2 <;> cases hb : b.2 <;> simp [h]
  · exact .inr (.inl h)⟩

instance : IsTrans Mark markLE := ⟨fun a b c h1 h2 => by
  unfold markLE at *
  rcases h1 with h1 | ⟨h1, h1'⟩ <;> rcases h2 with h2 | ⟨h2, h2'⟩
  · exact .inl (by omega)
  · exact .inl (by omega)
  · exact .inl (by omega)
  · right
    refine ⟨by omega, ?_⟩
    rcases h1' with h | h
    · exact .inl h
    · rcases h2' with h' | h'
      · rw [h] at h'; simp at h'
      · exact .inr h'⟩

instance : Std.Antisymm (markLE) := ⟨fun a b h1 h2 => by
  unfold markLE at *
  have e1 : a.1 = b.1 := by omega
  have e2 : a.2 = b.2 := by
    rcases h1 with h1 | ⟨_, h1⟩
    · omega
    · rcases h2 with h2 | ⟨_, h2⟩
      · omega
      · rcases h1 with h1 | h1 <;> rcases h2 with h2 | h2
        · rw [h1, h2]
        · rw [h1] at h2; simp at h2
        · rw [h1] at h2; simp at h2
        · rw [h1, h2]
  exact Prod.ext e1 e2⟩

theorem heapPush_perm (l : List Mark) (m : Mark) : heapPush l m ~ m :: l := List.perm_orderedInsert _ _ _

theorem heapPush_sorted {l : List Mark} (m : Mark) (h : l.Pairwise markLE) : (heapPush l m).Pairwise markLE :=
  List.Pairwise.orderedInsert _ _ h

theorem alternating_lo {lo : Int} {l : List (Int × Bool)} (h : Alternating lo l) : ∀ m ∈ l, lo < m.1 := by
  induction h with
  | nil => simp
  | pair h1 h2 _ ih =>
    intro m hm
    simp only [List.mem_cons] at hm
    rcases hm with rfl | rfl | hm
    · exact h1
    · exact lt_of_lt_of_le h1 h2
    · exact lt_of_lt_of_le (lt_of_lt_of_le h1 h2) (ih m hm).le

theorem alternating_sorted {lo : Int} {l : List (Int × Bool)} (h : Alternating lo l) : l.Pairwise markLE := by
  induction h with
  | nil => exact .nil
  | pair h1 h2 h3 ih =>
    have := alternating_lo h3
    refine .cons ?_ (.cons ?_ ih)
    · intro m hm
      simp only [List.mem_cons] at hm
      rcases hm with rfl | hm
      · unfold markLE; dsimp only; rcases lt_or_eq_of_le h2 with h | h
        · exact .inl h
        · exact .inr ⟨h, .inl rfl⟩
      · exact .inl (lt_of_le_of_lt h2 (this m hm))
    · intro m hm
      exact .inl (this m hm)

/-! ### Rows -/

theorem mem_intRange {a b x : Int} : x ∈ intRange a b ↔ a ≤ x ∧ x < b := by
  unfold intRange
  simp only [List.mem_map, List.mem_range]
  constructor
  · rintro ⟨i, h, rfl⟩; omega
  · intro h; exact ⟨(x - a).toNat, by omega, by omega⟩

theorem fill_alternating {width : Int} {lo : Int} {l : List Mark} (h : Alternating lo l) (hw : ∀ m ∈ l, m.1 < width) (x0 : Int) :
    ∃ m rest, l ++ [(width, false)] = m :: rest ∧ (l ≠ [] → m.2 = false) ∧
      ∃ cols, fillLoop width x0 true m rest = .ok cols ∧
        ∀ x, x ∈ cols ↔ Odd (l.countP (fun c => decide (c.1 ≤ x))) := by
  induction h generalizing x0 with
  | nil =>
    refine ⟨(width, false), [], rfl, by simp, [], ?_, ?_⟩
    · rw [fillLoop]; simp
    · simp
  | @pair lo u v rest h1 h2 h3 ih =>
    have hu : u < width := hw (u, false) (by simp)
    have hv : v < width := hw (v, true) (by simp)
    obtain ⟨m, r, e1, _, cols, hc, hx⟩ := ih (fun m hm => hw m (by simp [hm])) (max u v)
    refine ⟨(u, false), (v, true) :: (rest ++ [(width, false)]), rfl, by simp, intRange u v ++ cols, ?_, ?_⟩
    · rw [fillLoop, e1]
      simp only [hu, if_true]
      rw [fillLoop]
      simp only [hv, if_true, Bool.false_eq_true, if_false, hc, bind, Except.bind, pure, Except.pure]
      simp
    · intro x
      have hlo := alternating_lo h3
      simp only [List.mem_append, mem_intRange, hx, List.countP_cons, decide_eq_true_eq]
      rcases lt_or_ge x u with hxu | hxu
      · rw [if_neg (by omega), if_neg (by omega)]
        simp only [add_zero]
        constructor
        · rintro (h | h)
          · omega
          · exact h
        · exact fun h => .inr h
      · rcases lt_or_ge x v with hxv | hxv
        · have h0 : rest.countP (fun c => decide (c.1 ≤ x)) = 0 := by
            rw [List.countP_eq_zero]
            intro c hc
            have := hlo c hc
            simp; omega
          rw [if_neg (by omega), if_pos (by omega), h0]
          simp [hxu, hxv]
        · rw [if_pos (by omega), if_pos (by omega)]
          have : ¬ (u ≤ x ∧ x < v) := by omega
          simp only [this, false_or]
          rw [show rest.countP (fun c => decide (c.1 ≤ x)) + 1 + 1 = rest.countP (fun c => decide (c.1 ≤ x)) + 2 by ring,
            Nat.odd_add]
          simp

theorem fillRow_alternating {width : Nat} {l : List Mark} (h : Alternating (-1) l) (hw : ∀ m ∈ l, m.1 < width) :
    ∃ cols, fillRow width l = .ok cols ∧ ∀ x, x ∈ cols ↔ Odd (l.countP (fun c => decide (c.1 ≤ x))) := by
  have hpush : heapPush l ((width : Int), false) = l ++ [((width : Int), false)] := by
    apply List.Perm.eq_of_pairwise' (r := markLE)
    · exact heapPush_sorted _ (alternating_sorted h)
    · rw [List.pairwise_append]
      refine ⟨alternating_sorted h, by simp, ?_⟩
      intro a ha b hb
      simp only [List.mem_singleton] at hb
      subst hb
      exact .inl (hw a ha)
    · exact (heapPush_perm _ _).trans (by simpa using (List.perm_append_comm (l₁ := [((width : Int), false)]) (l₂ := l)))
  obtain ⟨m, rest, e, hm, cols, hc, hx⟩ := fill_alternating h hw 0
  refine ⟨cols, ?_, hx⟩
  rw [fillRow, hpush, e]
  dsimp only
  by_cases hl : l = []
  · subst hl
    simp only [List.nil_append, List.cons.injEq] at e
    obtain ⟨rfl, rfl⟩ := e
    rw [fillLoop] at hc ⊢
    simpa using hc
  · rw [hm hl]
    exact hc

/-! ### Scanning -/

theorem pushAt_nat {scans : List (List Mark)} {y : Nat} (h : y < scans.length) (m : Mark) :
    pushAt scans (y : Int) m = .ok (scans.set y (heapPush (scans[y]'h) m)) := by
  simp only [pushAt, pyIndex_nat _ _ _ (List.getElem?_eq_getElem h), bind, Except.bind, pySetItem_nat _ _ _ h]

theorem scanLoop_spec (down : Bool) (step : ℚ) (n : Nat) (x : ℚ) (y : Nat) (scans : List (List Mark)) (h : y + n ≤ scans.length) :
    ∃ scans', scanLoop down step n x (y : Int) scans = .ok scans' ∧ scans'.length = scans.length ∧
      ∀ j : Nat, scans'[j]? = if y ≤ j ∧ j < y + n then
        (scans[j]?).map (fun r => heapPush r (pyRound (x + ((j : ℚ) - y) * step), down)) else scans[j]? := by
  induction n generalizing x y scans with
  | zero =>
    refine ⟨scans, rfl, rfl, fun j => ?_⟩
    rw [if_neg (by omega)]
  | succ n ih =>
    have hy : y < scans.length := by omega
    obtain ⟨s', h1, h2, h3⟩ := ih (x + step) (y + 1) (scans.set y (heapPush (scans[y]'hy) (pyRound x, down))) (by simp; omega)
    refine ⟨s', ?_, by simpa using h2, ?_⟩
    · simp only [scanLoop, pushAt_nat hy, bind, Except.bind]
      have : (y : Int) + 1 = ((y + 1 : Nat) : Int) := by push_cast; ring
      rw [this]
      exact h1
    · intro j
      rw [h3 j]
      by_cases hj : j = y
      · subst hj
        rw [if_neg (by omega), if_pos (by omega), List.getElem?_set_self hy, List.getElem?_eq_getElem hy]
        simp
      · rw [List.getElem?_set_ne (fun e => hj e.symm)]
        by_cases hr : y + 1 ≤ j ∧ j < y + 1 + n
        · rw [if_pos hr, if_pos (by omega)]
          have : x + step + ((j : ℚ) - (y + 1 : Nat)) * step = x + ((j : ℚ) - y) * step := by push_cast; ring
          rw [this]
        · rw [if_neg hr, if_neg (by omega)]

/-- The effect of one side on row `y`. -/
def pushMark (y : Int) (r : List Mark) (s : (Int × Int) × (Int × Int)) : List Mark :=
  if MeetsRow y s.1 s.2 then heapPush r (pyRound (crossingAt y s.1 s.2), decide (s.1.2 < s.2.2)) else r

/-- `p` is on a row from 0 to `h`, included. -/
def RowOk (h : Nat) (p : Int × Int) : Prop := 0 ≤ p.2 ∧ p.2 ≤ h

theorem crossingAt_swap {y : Int} {a b : Int × Int} (h : a.2 ≠ b.2) : crossingAt y a b = crossingAt y b a := by
  unfold crossingAt
  have h1 : (b.2 : ℚ) - a.2 ≠ 0 := by
    intro e; apply h; have : (b.2 : ℚ) = a.2 := by linarith
    exact_mod_cast this.symm
  have h2 : (a.2 : ℚ) - b.2 ≠ 0 := by
    intro e; apply h; have : (a.2 : ℚ) = b.2 := by linarith
    exact_mod_cast this
  rw [mul_div_assoc', mul_div_assoc', ← sub_eq_zero]
  field_simp
  ring

theorem slope_eq {a b : Int × Int} (hlt : a.2 < b.2) (hx : a.1 ≠ b.1) :
    (if a.1 < b.1 then (1 : ℚ) else -1) / |((b.2 - a.2 : Int) : ℚ) / ((b.1 - a.1 : Int) : ℚ)| =
      (b.1 - a.1 : ℚ) / (b.2 - a.2) := by
  have h2 : (0 : ℚ) < b.2 - a.2 := by
    have : (a.2 : ℚ) < b.2 := by exact_mod_cast hlt
    linarith
  push_cast
  rw [abs_div, abs_of_pos h2]
  by_cases h : a.1 < b.1
  · have h3 : (0 : ℚ) < b.1 - a.1 := by
      have : (a.1 : ℚ) < b.1 := by exact_mod_cast h
      linarith
    rw [if_pos h, abs_of_pos h3]
    field_simp
  · have h3 : (b.1 : ℚ) - a.1 < 0 := by
      have : (b.1 : ℚ) < a.1 := by exact_mod_cast (show b.1 < a.1 by omega)
      linarith
    rw [if_neg h, abs_of_neg h3]
    have h4 : -((b.1 : ℚ) - a.1) ≠ 0 := by linarith
    rw [div_div_eq_mul_div]
    congr 1
    ring

/-- Down one side, whichever way it was given. -/
theorem scan_down {h : Nat} {a b : Int × Int} (ha : RowOk h a) (hb : RowOk h b) (hlt : a.2 < b.2) (down : Bool)
    (scans : List (List Mark)) (hs : scans.length = h) :
    ∃ scans', (if a.1 = b.1 then scanLoop down 0 (b.2 - a.2).toNat (a.1 : ℚ) a.2 scans
      else scanLoop down ((if a.1 < b.1 then (1 : ℚ) else -1) / |((b.2 - a.2 : Int) : ℚ) / ((b.1 - a.1 : Int) : ℚ)|)
        (b.2 - a.2).toNat (a.1 : ℚ) a.2 scans) = .ok scans' ∧ scans'.length = h ∧
      ∀ j : Nat, scans'[j]? = (scans[j]?).map (fun r => if a.2 ≤ j ∧ (j : Int) < b.2 then
        heapPush r (pyRound (crossingAt j a b), down) else r) := by
  obtain ⟨ha1, ha2⟩ := ha
  obtain ⟨hb1, hb2⟩ := hb
  obtain ⟨y, hy⟩ : ∃ y : Nat, a.2 = y := ⟨a.2.toNat, by omega⟩
  have hstep : ∃ step : ℚ, (if a.1 = b.1 then scanLoop down 0 (b.2 - a.2).toNat (a.1 : ℚ) a.2 scans
      else scanLoop down ((if a.1 < b.1 then (1 : ℚ) else -1) / |((b.2 - a.2 : Int) : ℚ) / ((b.1 - a.1 : Int) : ℚ)|)
        (b.2 - a.2).toNat (a.1 : ℚ) a.2 scans) = scanLoop down step (b.2 - a.2).toNat (a.1 : ℚ) a.2 scans ∧
      step = (b.1 - a.1 : ℚ) / (b.2 - a.2) := by
    by_cases hx : a.1 = b.1
    · exact ⟨0, by rw [if_pos hx], by rw [hx]; simp⟩
    · exact ⟨_, by rw [if_neg hx], slope_eq hlt hx⟩
  obtain ⟨step, he, hst⟩ := hstep
  rw [he]
  obtain ⟨s', h1, h2, h3⟩ := scanLoop_spec down step (b.2 - a.2).toNat (a.1 : ℚ) y scans (by omega)
  refine ⟨s', ?_, by omega, ?_⟩
  · rw [hy] at h1 ⊢; exact h1
  · intro j
    rw [h3 j]
    by_cases hr : a.2 ≤ j ∧ (j : Int) < b.2
    · rw [if_pos (by omega)]
      simp only [if_pos hr]
      have : (a.1 : ℚ) + ((j : ℚ) - y) * step = crossingAt j a b := by
        unfold crossingAt
        rw [hst, hy]
        push_cast
        ring
      rw [this]
    · rw [if_neg (by omega)]
      simp only [if_neg hr]
      simp

theorem scanEdge_spec {h : Nat} {s : (Int × Int) × (Int × Int)} (ha : RowOk h s.1) (hb : RowOk h s.2)
    (scans : List (List Mark)) (hs : scans.length = h) :
    ∃ scans', scanEdge scans s = .ok scans' ∧ scans'.length = h ∧
      ∀ j : Nat, scans'[j]? = (scans[j]?).map (fun r => pushMark j r s) := by
  obtain ⟨⟨xa, ya⟩, ⟨xb, yb⟩⟩ := s
  simp only [scanEdge]
  by_cases he : ya = yb
  · rw [if_pos he]
    refine ⟨scans, rfl, hs, fun j => ?_⟩
    have : ¬ MeetsRow j (xa, ya) (xb, yb) := by simp [MeetsRow, he]
    simp [pushMark, this]
  · rw [if_neg he]
    by_cases hlt : ya < yb
    · simp only [hlt, decide_true, if_true]
      obtain ⟨s', h1, h2, h3⟩ := scan_down (a := (xa, ya)) (b := (xb, yb)) ha hb hlt true scans hs
      refine ⟨s', h1, h2, fun j => ?_⟩
      rw [h3 j]
      congr 1
      funext r
      have hm : MeetsRow j (xa, ya) (xb, yb) ↔ (ya ≤ j ∧ (j : Int) < yb) := by
        simp only [MeetsRow, min_eq_left hlt.le, max_eq_right hlt.le]
      simp only [pushMark, hm, hlt, decide_true]
    · have hlt' : yb < ya := by omega
      simp only [hlt, decide_false, Bool.false_eq_true, if_false]
      obtain ⟨s', h1, h2, h3⟩ := scan_down (a := (xb, yb)) (b := (xa, ya)) hb ha hlt' false scans hs
      refine ⟨s', h1, h2, fun j => ?_⟩
      rw [h3 j]
      congr 1
      funext r
      have hm : MeetsRow j (xa, ya) (xb, yb) ↔ (yb ≤ j ∧ (j : Int) < ya) := by
        simp only [MeetsRow, min_eq_right hlt'.le, max_eq_left hlt'.le]
      simp only [pushMark, hm, hlt, decide_false, crossingAt_swap (show ((xa, ya) : Int × Int).2 ≠ ((xb, yb) : Int × Int).2 from he)]

theorem scanEdges_spec {h : Nat} (es : List ((Int × Int) × (Int × Int))) (hes : ∀ e ∈ es, RowOk h e.1 ∧ RowOk h e.2)
    (scans : List (List Mark)) (hs : scans.length = h) :
    ∃ scans', es.foldlM scanEdge scans = .ok scans' ∧ scans'.length = h ∧
      ∀ j : Nat, scans'[j]? = (scans[j]?).map (fun r => es.foldl (pushMark j) r) := by
  induction es generalizing scans with
  | nil => exact ⟨scans, rfl, hs, fun j => by simp⟩
  | cons e es ih =>
    have h0 := hes e (by simp)
    obtain ⟨s1, h1, h2, h3⟩ := scanEdge_spec h0.1 h0.2 scans hs
    obtain ⟨s2, h4, h5, h6⟩ := ih (fun e he => hes e (by simp [he])) s1 h2
    refine ⟨s2, ?_, h5, fun j => ?_⟩
    · simp only [List.foldlM_cons, h1, bind, Except.bind]; exact h4
    · rw [h6 j, h3 j]; simp [Function.comp_def]

theorem closedEdges_eq (points : List (Int × Int)) : closedEdges points = sidesOf points := by
  unfold closedEdges sidesOf
  cases points with
  | nil => rfl
  | cons p ps => simp

theorem foldlM_flatMap {α β σ : Type} (f : σ → β → Py σ) (g : α → List β) (l : List α) (s : σ) :
    l.foldlM (fun s a => (g a).foldlM f s) s = (l.flatMap g).foldlM f s := by
  induction l generalizing s with
  | nil => rfl
  | cons a l ih => simp [List.foldlM_append, ih]

theorem pushMarks_perm (y : Int) (es : List ((Int × Int) × (Int × Int))) (r : List Mark) :
    es.foldl (pushMark y) r ~ crossings y es ++ r := by
  induction es generalizing r with
  | nil => exact .refl _
  | cons e es ih =>
    rw [List.foldl_cons]
    refine (ih _).trans ?_
    unfold pushMark crossings
    rw [List.filterMap_cons]
    split
    · refine ((heapPush_perm _ _).append_left _).trans ?_
      exact List.perm_middle
    · exact .refl _

theorem pushMarks_sorted (y : Int) (es : List ((Int × Int) × (Int × Int))) (r : List Mark) (h : r.Pairwise markLE) :
    (es.foldl (pushMark y) r).Pairwise markLE := by
  induction es generalizing r with
  | nil => exact h
  | cons e es ih =>
    rw [List.foldl_cons]
    apply ih
    unfold pushMark
    split
    · exact heapPush_sorted _ h
    · exact h

/-- Filling rows whose marks alternate. -/
theorem fillRows_spec (width : Nat) (scans : List (List Mark)) (y : Int)
    (hrow : ∀ (j : Nat) (r : List Mark), scans[j]? = some r → Alternating (-1) r ∧ ∀ m ∈ r, m.1 < width) :
    ∃ pixels, fillRows width y scans = .ok pixels ∧
      ∀ x z, (x, z) ∈ pixels ↔ ∃ (j : Nat) (r : List Mark), z = y + j ∧ scans[j]? = some r ∧ Odd (r.countP (fun c => decide (c.1 ≤ x))) := by
  induction scans generalizing y with
  | nil => exact ⟨[], rfl, by simp⟩
  | cons r scans ih =>
    obtain ⟨h1, h2⟩ := hrow 0 r rfl
    obtain ⟨cols, hc, hx⟩ := fillRow_alternating h1 h2
    obtain ⟨ps, hp, hm⟩ := ih (y + 1) (fun j r' h => hrow (j + 1) r' (by simpa using h))
    refine ⟨cols.map (fun x => (x, y)) ++ ps, ?_, ?_⟩
    · simp only [fillRows, hc, hp, bind, Except.bind, pure, Except.pure]
    · intro x z
      simp only [List.mem_append, List.mem_map, Prod.mk.injEq, hm]
      constructor
      · rintro (⟨a, ha, rfl, rfl⟩ | ⟨j, r', e, h, ho⟩)
        · exact ⟨0, r, by simp, rfl, (hx _).mp ha⟩
        · exact ⟨j + 1, r', by push_cast; omega, by simpa using h, ho⟩
      · rintro ⟨j, r', e, h, ho⟩
        cases j with
        | zero =>
          simp only [List.getElem?_cons_zero, Option.some.injEq] at h
          subst h
          exact .inl ⟨x, (hx x).mpr ho, rfl, by simp [e]⟩
        | succ j => exact .inr ⟨j, r', by push_cast at e; omega, by simpa using h, ho⟩

end Coral
