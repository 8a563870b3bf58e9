import Verif.Proofs.Coord
import Verif.Proofs.Simplify
import Mathlib.Tactic.FinCases
import Mathlib.Tactic.Positivity
import Mathlib.Tactic.LinearCombination
import Mathlib.Data.Rat.Cast.Order
import Mathlib.Algebra.Order.Ring.Rat
import Mathlib.Data.Rat.Floor

/-!
# Properties C09-C14 and C19 (`coral/coord.py`)
-/
set_option linter.unusedSectionVars false
namespace Coral
open scoped List

/-- **C09**: for every capacity that is a power of two and every sequence of method calls, a fresh `Buffer` answers
exactly like a plain bounded queue (`queueRun`, `Verif/Spec/Buffer.lean`), exceptions included. -/
theorem C09_buffer_is_bounded_queue {α : Type} (j : Nat) (ops : List (BufOp α)) :
    ∃ b : Buffer α, Buffer.init (2 ^ j) = .ok b ∧ b.run ops = queueRun (2 ^ j) [] ops := by
  obtain ⟨b, h1, h2, h3⟩ := Buffer.init_rep (α := α) (n := 2 ^ j) ⟨j, rfl⟩
  exact ⟨b, h1, by rw [Buffer.run_rep h3, h2]⟩

/-- **C09**: a call that raises changes nothing that later calls can observe (it leaves the object as it was). -/
theorem C09_buffer_error_keeps_state {α : Type} (b : Buffer α) (op : BufOp α) (e : PyErr)
    (h : (b.exec op).1 = .err e) : (b.exec op).2 = b := by
  cases op <;> simp only [Buffer.exec] at h ⊢
  · split at h <;> simp_all
  · split at h <;> simp_all
  · split at h <;> simp_all
  · split at h <;> simp_all

/-- **C09**: other capacities (except 0, see the model) are rejected. -/
theorem C09_buffer_capacity {α : Type} (n : Nat) (hn : 0 < n) (h : ¬ ∃ j, n = 2 ^ j) :
    Buffer.init (α := α) n = .error .assertionError := by
  have : n &&& (n - 1) ≠ 0 := by
    intro h0
    exact h ((Nat.and_sub_one_eq_zero_iff_isPowerOfTwo (by omega)).mp h0)
  simp [Buffer.init, pyAssert, this, bind, Except.bind]

/-- A wrap-around run: capacity 2, pushes and shifts interleaved. -/
example : ∃ b : Buffer Nat, Buffer.init 2 = .ok b ∧
    b.run [.push 1, .push 2, .push 3, .shift, .push 4, .isfull, .pop, .peek, .shift, .shift] =
      [.none, .none, .err .assertionError, .val (some 1), .none, .bool true, .val (some 4), .val (some 2),
        .val (some 2), .err .assertionError] :=
  ⟨⟨2, [none, none], 0, 0⟩, by decide, by decide⟩

section
variable {K : Type} [Field K] [LinearOrder K] [IsStrictOrderedRing K] [FloorRing K]

/-- **C10**: no integer is closer to `x` than `nearest(x)`, which is at distance at most 1/2. -/
theorem C10_nearest_closest (x : K) :
    |(nearest x : K) - x| ≤ 1 / 2 ∧ ∀ m : Int, |(nearest x : K) - x| ≤ |(m : K) - x| := by
  refine ⟨nearest_abs x, fun m => ?_⟩
  by_cases h : m = nearest x
  · rw [h]
  · have h1 := nearest_abs x
    have h2 : (1 : K) ≤ |(m : K) - nearest x| := by
      rw [← Int.cast_sub, ← Int.cast_abs]
      have : (1 : Int) ≤ |m - nearest x| := Int.one_le_abs (sub_ne_zero.mpr h)
      exact_mod_cast this
    have h3 : |(m : K) - nearest x| ≤ |(m : K) - x| + |(nearest x : K) - x| := by
      rw [abs_sub_comm (nearest x : K) x]
      calc |(m : K) - nearest x| = |((m : K) - x) + (x - nearest x)| := by ring_nf
        _ ≤ _ := abs_add_le _ _
    linarith

/-- **C10**: at a tie the answer is the integer farther from zero. -/
theorem C10_nearest_ties_away (x : K) (m : Int) (h : |(m : K) - x| = 1 / 2) : |m| ≤ |nearest x| := by
  rcases le_or_gt 0 x with hx | hx
  · have hb := nearest_bounds_nonneg hx
    have hs := nearest_sign_nonneg hx
    have hm : m ≤ nearest x := by
      by_contra hc
      push Not at hc
      have h1 : ((nearest x + 1 : Int) : K) ≤ m := by exact_mod_cast hc
      push_cast at h1
      have := (abs_le.mp h.le).2
      linarith
    have hm0 : -1 < m := by
      have h1 := (abs_le.mp h.le).1
      have : ((-1 : Int) : K) < m := by push_cast; linarith
      exact_mod_cast this
    rw [abs_of_nonneg hs, abs_of_nonneg (by omega)]
    exact hm
  · have hb := nearest_bounds_neg hx
    have hs := nearest_sign_neg hx
    have hm : nearest x ≤ m := by
      by_contra hc
      push Not at hc
      have h1 : (m : K) ≤ ((nearest x - 1 : Int) : K) := by exact_mod_cast (by omega : m ≤ nearest x - 1)
      push_cast at h1
      have := (abs_le.mp h.le).1
      linarith
    have hm0 : m < 1 := by
      have h1 := (abs_le.mp h.le).2
      have : (m : K) < ((1 : Int) : K) := by push_cast; linarith
      exact_mod_cast this
    rw [abs_of_nonpos hs, abs_of_nonpos (by omega)]
    omega

/-- **C10**: `nearest` is odd, monotone, and the identity on integers. -/
theorem C10_nearest_laws :
    (∀ x : K, nearest (-x) = - nearest x) ∧ (∀ x y : K, x ≤ y → nearest x ≤ nearest y) ∧
      (∀ n : Int, nearest (n : K) = n) :=
  ⟨nearest_odd, fun _ _ h => nearest_mono h, nearest_intCast⟩

/-- The rounded grid path of C11-C13. -/
def gridPath (m : K) (pts : List (K × K)) : List Pt := pts.map fun p => (nearest (p.1 / m), nearest (p.2 / m))

theorem sqrFit_eq {m : K} (hm : m ≠ 0) (pts : List (K × K)) : sqrFit m pts = (gridPath m pts, none) := by
  induction pts with
  | nil => rfl
  | cons p pts ih => simp [sqrFit, hm, ih, gridPath]

/-- **C11**: simplifying an open path of at least two points, with a non-zero scale and any power-of-two buffer, ends
normally and gives a subsequence of the rounded points with the same first and last point. -/
theorem C11_open_simplify_subsequence (pts : List (K × K)) (scl : K) (hs : scl ≠ 0) (j : Nat)
    (h2 : 2 ≤ pts.length) :
    ∃ first mid last, simplify pts scl false (2 ^ j) = (first :: mid ++ [last], none) ∧
      (first :: mid ++ [last]) <+ gridPath scl pts ∧
      (gridPath scl pts).head? = some first ∧ (gridPath scl pts).getLast? = some last := by
  obtain ⟨a, b, l, rfl⟩ : ∃ a b l, pts = a :: b :: l := by
    match pts, h2 with
    | a :: b :: l, _ => exact ⟨a, b, l, rfl⟩
  have hg : ∀ l', gridPath scl (a :: b :: l') = (nearest (a.1 / scl), nearest (a.2 / scl)) ::
      (nearest (b.1 / scl), nearest (b.2 / scl)) :: gridPath scl l' := fun _ => rfl
  simp only [simplify, sqrFit_eq hs, hg]
  generalize (nearest (a.1 / scl), nearest (a.2 / scl)) = p
  generalize (nearest (b.1 / scl), nearest (b.2 / scl)) = q
  generalize gridPath scl l = s
  have hrun := openNoSlit_eq (k := 2 ^ j) ⟨j, rfl⟩ p q s
  obtain ⟨mid, h3, h4⟩ := absOpen_sublist (2 ^ j) (Nat.two_pow_pos j) [p] [] p q s [p, q] (by simp)
  refine ⟨p, mid, (q :: s).getLast (by simp), ?_, ?_, rfl, ?_⟩
  · simp only [Bool.false_eq_true, if_false, hrun, h3]
    rfl
  · rw [h3] at h4
    simpa using h4
  · rw [List.getLast?_eq_some_getLast (by simp)]
    simp

/-- **C11**: with fewer points `simplify` raises (after yielding the single point, if there is one); a zero scale raises
`ZeroDivisionError`. -/
theorem C11_open_simplify_short (scl : K) (hs : scl ≠ 0) (a : K × K) (j : Nat) :
    simplify [] scl false (2 ^ j) = ([], some .runtimeError) ∧
      simplify [a] scl false (2 ^ j) = (gridPath scl [a], some .runtimeError) ∧
      ∀ pts, simplify (a :: pts) 0 false (2 ^ j) = ([], some .zeroDivisionError) := by
  obtain ⟨b, h1, _, _⟩ := Buffer.init_rep (α := Pt) (n := 2 ^ j) ⟨j, rfl⟩
  refine ⟨?_, ?_, fun pts => ?_⟩
  · simp [simplify, sqrFit, openNoSlit, h1, nextErr, Gen.raise]
  · simp [simplify, sqrFit, openNoSlit, h1, nextErr, Gen.raise, Gen.yields, hs, gridPath]
  · simp [simplify, sqrFit, openNoSlit, h1, nextErr, Gen.raise]

/-- **C12**, partial: as long as no two successive turns of the rounded path are at the same grid point, the output is
the first point, then every turn, then the last point, for every buffer capacity. Missing: paths with slits (the same
corner twice in a row), for which the claim is false, see `C12_open_simplify_violated`. -/
theorem C12_open_simplify_turns_partial (pts : List (K × K)) (scl : K) (hs : scl ≠ 0) (j : Nat)
    (h2 : 2 ≤ pts.length)
    (hslit : (turns (noRepeats (gridPath scl pts))).IsChain (· ≠ ·)) :
    ∃ first last, (gridPath scl pts).head? = some first ∧ (gridPath scl pts).getLast? = some last ∧
      simplify pts scl false (2 ^ j) = (first :: turns (noRepeats (gridPath scl pts)) ++ [last], none) := by
  obtain ⟨a, b, l, rfl⟩ : ∃ a b l, pts = a :: b :: l := by
    match pts, h2 with
    | a :: b :: l, _ => exact ⟨a, b, l, rfl⟩
  have hg : ∀ l', gridPath scl (a :: b :: l') = (nearest (a.1 / scl), nearest (a.2 / scl)) ::
      (nearest (b.1 / scl), nearest (b.2 / scl)) :: gridPath scl l' := fun _ => rfl
  simp only [simplify, sqrFit_eq hs, hg] at hslit ⊢
  generalize (nearest (a.1 / scl), nearest (a.2 / scl)) = p at *
  generalize (nearest (b.1 / scl), nearest (b.2 / scl)) = q at *
  generalize gridPath scl l = s at *
  refine ⟨p, (q :: s).getLast (by simp), rfl, ?_, ?_⟩
  · rw [List.getLast?_eq_some_getLast (by simp)]
    simp
  · simp only [Bool.false_eq_true, if_false, openNoSlit_eq (k := 2 ^ j) ⟨j, rfl⟩ p q s]
    rw [absOpen_turns (2 ^ j) (Nat.two_pow_pos j) [] p q s (by rw [turns_head_dup]; simpa using hslit),
      turns_head_dup]
    simp

end

/-- A path with two turns and a collinear vertex, meeting the hypothesis of the partial theorem. -/
example : (turns (noRepeats (gridPath (1 : ℚ) [(0, 0), (1, 0), (2, 0), (2, 2), (3, 3)]))).IsChain (· ≠ ·) ∧
    turns (noRepeats (gridPath (1 : ℚ) [(0, 0), (1, 0), (2, 0), (2, 2), (3, 3)])) = [(2, 0), (2, 2)] := by
  decide +kernel

/-- **C12** is false as stated: here the path turns at `(1,0)` towards `(1,-1)`, yet the output is only the two end
points, so that it cuts from `(0,0)` to `(1,-1)`. -/
theorem C12_open_simplify_violated :
    ∃ pts : List (ℚ × ℚ), simplify pts 1 = ([(0, 0), (1, -1)], none) ∧
      (1, 0) ∈ turns (noRepeats (gridPath 1 pts)) ∧
      ∃ a c, [a, (1, 0), c] <:+: gridPath 1 pts ∧ cross2 a (1, 0) c ≠ 0 ∧ cross2 (0, 0) (1, -1) (1, 0) ≠ 0 :=
  ⟨[(0, 0), (1, 0), (2, 1), (1, 0), (1, -1)], by decide +kernel, by decide +kernel, (2, 1), (1, -1),
    ⟨[(0, 0), (1, 0)], [], by decide +kernel⟩, by decide, by decide⟩

section
variable {K : Type} [Field K] [LinearOrder K] [IsStrictOrderedRing K] [FloorRing K]

/-- **C13**, partial (which points): for at least three points the closed simplification ends normally, outputs only
rounded input points, begins with the first and ends with the last. -/
theorem C13_closed_simplify_points_partial (pts : List (K × K)) (scl : K) (hs : scl ≠ 0) (j : Nat)
    (h3 : 3 ≤ pts.length) :
    ∃ first mid last, simplify pts scl true (2 ^ j) = (first :: mid ++ [last], none) ∧
      (∀ x ∈ first :: mid ++ [last], x ∈ gridPath scl pts) ∧
      (gridPath scl pts).head? = some first ∧ (gridPath scl pts).getLast? = some last := by
  obtain ⟨a, b, c, l, rfl⟩ : ∃ a b c l, pts = a :: b :: c :: l := by
    match pts, h3 with
    | a :: b :: c :: l, _ => exact ⟨a, b, c, l, rfl⟩
  have hg : ∀ l', gridPath scl (a :: b :: c :: l') = (nearest (a.1 / scl), nearest (a.2 / scl)) ::
      (nearest (b.1 / scl), nearest (b.2 / scl)) :: (nearest (c.1 / scl), nearest (c.2 / scl)) ::
      gridPath scl l' := fun _ => rfl
  simp only [simplify, sqrFit_eq hs, hg]
  generalize (nearest (a.1 / scl), nearest (a.2 / scl)) = p
  generalize (nearest (b.1 / scl), nearest (b.2 / scl)) = q
  generalize (nearest (c.1 / scl), nearest (c.2 / scl)) = r
  generalize gridPath scl l = s
  have hrun := closedNoSlit_eq (k := 2 ^ j) ⟨j, rfl⟩ p q r s
  obtain ⟨mid, h4⟩ := absClosed_last (2 ^ j) [] [] p q p (r :: s)
  have hm := absClosed_mem (p :: q :: r :: s) (2 ^ j) [] [] p q p (r :: s) (by simp) (by simp) (by simp) (by simp)
    (by simp) (by intro x hx; simp only [List.mem_cons] at hx ⊢; tauto)
  refine ⟨p, mid, (p :: r :: s).getLast (by simp), ?_, ?_, rfl, ?_⟩
  · simp only [if_true, hrun, h4]
    rfl
  · intro x hx
    rw [h4] at hm
    rcases List.mem_cons.mp hx with hx | hx
    · simp [hx]
    · exact hm x hx
  · rw [List.getLast?_eq_some_getLast (by simp)]
    simp

/-- **C13**, partial (ring order): when the rounded path has at most `k` turns and no slit, the closed simplification is
the first point, all the turns in order, then the last segment (with its last point doubled). Missing: rings of more
than `k` turns, for which the order is wrong, see `C13_closed_simplify_violated`. -/
theorem C13_closed_simplify_order_partial (pts : List (K × K)) (scl : K) (hs : scl ≠ 0) (j : Nat)
    (h3 : 3 ≤ pts.length)
    (hslit : (turns (noRepeats (gridPath scl pts))).IsChain (· ≠ ·))
    (hfew : (turns (noRepeats (gridPath scl pts))).length ≤ 2 ^ j) :
    ∃ first beforeLast last, (gridPath scl pts).head? = some first ∧ (gridPath scl pts).getLast? = some last ∧
      ((∃ ini, noRepeats (gridPath scl pts) = ini ++ [beforeLast, last]) ∨
        (noRepeats (gridPath scl pts) = [last] ∧ beforeLast = last)) ∧
      simplify pts scl true (2 ^ j) =
        (first :: turns (noRepeats (gridPath scl pts)) ++ [beforeLast, last, last], none) := by
  obtain ⟨a, b, c, l, rfl⟩ : ∃ a b c l, pts = a :: b :: c :: l := by
    match pts, h3 with
    | a :: b :: c :: l, _ => exact ⟨a, b, c, l, rfl⟩
  have hg : ∀ l', gridPath scl (a :: b :: c :: l') = (nearest (a.1 / scl), nearest (a.2 / scl)) ::
      (nearest (b.1 / scl), nearest (b.2 / scl)) :: (nearest (c.1 / scl), nearest (c.2 / scl)) ::
      gridPath scl l' := fun _ => rfl
  simp only [simplify, sqrFit_eq hs, hg] at hslit hfew ⊢
  generalize (nearest (a.1 / scl), nearest (a.2 / scl)) = p at *
  generalize (nearest (b.1 / scl), nearest (b.2 / scl)) = q at *
  generalize (nearest (c.1 / scl), nearest (c.2 / scl)) = r at *
  generalize gridPath scl l = s at *
  have hl2 := lastTwo_snd p q (r :: s)
  have hg2 : (q :: r :: s).getLast (by simp) = (r :: s).getLast (by simp) := by simp
  rw [hg2] at hl2
  refine ⟨p, (lastTwo p q (r :: s)).1, (r :: s).getLast (by simp), rfl, ?_, ?_, ?_⟩
  · rw [List.getLast?_eq_some_getLast (by simp)]
    simp
  · rcases lastTwo_spec p q (r :: s) with ⟨ini, h⟩ | ⟨h, h'⟩
    · left; exact ⟨ini, by rw [h, hl2]⟩
    · right
      rw [← hl2, h, h']
      exact ⟨rfl, rfl⟩
  · simp only [if_true, closedNoSlit_eq (k := 2 ^ j) ⟨j, rfl⟩ p q r s]
    rw [absClosed_few (2 ^ j) (Nat.two_pow_pos j) [] p q p (r :: s)
      (by rw [turns_head_dup]; simpa using hslit) (by rw [turns_head_dup]; simpa using hfew), turns_head_dup, hl2]
    simp

end

/-- A square with an extra vertex, meeting the hypotheses of the partial theorems. -/
example : (turns (noRepeats (gridPath (1 : ℚ) [(0, 0), (2, 0), (2, 1), (2, 2), (0, 2), (0, 0)]))).IsChain (· ≠ ·) ∧
    (turns (noRepeats (gridPath (1 : ℚ) [(0, 0), (2, 0), (2, 1), (2, 2), (0, 2), (0, 0)]))).length = 3 := by
  decide +kernel

/-- **C13** is false as stated, with the default buffer capacity of 8: a ring with ten turns comes back with its second
last corners before its first ones. The two turns `(1,0)` and `(4,5)` are visited in the opposite order. -/
theorem C13_closed_simplify_violated :
    ∃ (pts : List (ℚ × ℚ)) (out : List Pt), simplify pts 1 true = (out, none) ∧
      [(1, 0), (4, 5)] <+ gridPath 1 pts ∧ [(4, 5), (1, 0)] <+ out ∧ ¬ [(1, 0), (4, 5)] <+ out ∧
      (gridPath 1 pts).dropLast.Nodup ∧ ¬ noRepeats out <+ gridPath 1 pts :=
  ⟨[(0, 0), (1, 0), (1, 1), (2, 1), (2, 2), (3, 2), (3, 3), (4, 3), (4, 4), (5, 4), (4, 5), (0, 5), (0, 0)],
    (simplify [((0 : ℚ), (0 : ℚ)), (1, 0), (1, 1), (2, 1), (2, 2), (3, 2), (3, 3), (4, 3), (4, 4), (5, 4), (4, 5),
      (0, 5), (0, 0)] 1 true).1,
    by decide +kernel, by decide +kernel, by decide +kernel, by decide +kernel, by decide +kernel,
    by decide +kernel⟩

section
variable {K : Type} [Field K] [LinearOrder K] [IsStrictOrderedRing K]

/-- **C14**: `collinear(a, b, c)` holds iff some line `u x + v y = w` passes through the three points. -/
theorem C14_collinear_iff_line (a b c : K × K) :
    collinear a b c = true ↔
      ∃ u v w : K, (u ≠ 0 ∨ v ≠ 0) ∧ ∀ p ∈ [a, b, c], u * p.1 + v * p.2 = w := by
  obtain ⟨xa, ya⟩ := a
  obtain ⟨xb, yb⟩ := b
  obtain ⟨xc, yc⟩ := c
  simp only [collinear, beq_iff_eq, List.mem_cons, List.not_mem_nil, or_false, forall_eq_or_imp, forall_eq]
  constructor
  · intro h
    by_cases hab : xa = xb ∧ ya = yb
    · obtain ⟨rfl, rfl⟩ := hab
      by_cases hac : xa = xc ∧ ya = yc
      · obtain ⟨rfl, rfl⟩ := hac
        exact ⟨1, 0, xa, Or.inl one_ne_zero, by ring, by ring, by ring⟩
      · refine ⟨ya - yc, xc - xa, (ya - yc) * xa + (xc - xa) * ya, ?_, by ring, by ring, by ring⟩
        rw [not_and_or] at hac
        rcases hac with h | h
        · right; exact sub_ne_zero.mpr (Ne.symm h)
        · left; exact sub_ne_zero.mpr h
    · refine ⟨ya - yb, xb - xa, (ya - yb) * xa + (xb - xa) * ya, ?_, by ring, by ring, by linear_combination h⟩
      rw [not_and_or] at hab
      rcases hab with h | h
      · right; exact sub_ne_zero.mpr (Ne.symm h)
      · left; exact sub_ne_zero.mpr h
  · rintro ⟨u, v, w, huv, h1, h2, h3⟩
    rcases huv with hu | hv
    · apply mul_left_cancel₀ hu
      linear_combination (yb - ya) * (h1 - h3) - (yc - ya) * (h1 - h2)
    · apply mul_left_cancel₀ hv
      linear_combination (xa - xc) * (h2 - h1) - (xa - xb) * (h3 - h1)

/-- **C14**: the order of the points and a common translation do not matter. -/
theorem C14_collinear_invariant (a b c t : K × K) :
    collinear a b c = collinear b a c ∧ collinear a b c = collinear a c b ∧ collinear a b c = collinear b c a ∧
      collinear (a.1 + t.1, a.2 + t.2) (b.1 + t.1, b.2 + t.2) (c.1 + t.1, c.2 + t.2) = collinear a b c := by
  have key : ∀ x y z w : K × K, ∀ x' y' : K × K, (((x.1 - z.1) * (y.2 - x.2) = (x.1 - y.1) * (z.2 - x.2)) ↔
      ((w.1 - y'.1) * (x'.2 - w.2) = (w.1 - x'.1) * (y'.2 - w.2))) →
      collinear x y z = collinear w x' y' := by
    intro x y z w x' y' h
    rw [Bool.eq_iff_iff, collinear, collinear, beq_iff_eq, beq_iff_eq]
    exact h
  refine ⟨key _ _ _ _ _ _ ⟨?_, ?_⟩, key _ _ _ _ _ _ ⟨?_, ?_⟩, key _ _ _ _ _ _ ⟨?_, ?_⟩, key _ _ _ _ _ _ ⟨?_, ?_⟩⟩ <;>
    intro h <;> first | linear_combination h | linear_combination -h

end

example : collinear ((0 : ℚ), (0 : ℚ)) (1, 2) (2, 4) = true ∧ collinear ((0 : ℚ), (0 : ℚ)) (1, 2) (2, 3) = false := by
  decide +kernel

section
variable {K : Type} [Field K] [LinearOrder K] [IsStrictOrderedRing K] [FloorRing K]

/-- **C19**: no bearing raises, and the name returned is that of a wind at most 11.25 degrees away on the circle. -/
theorem C19_cardinal_nearest_wind (b : K) :
    ∃ name w, bearing2cardinal b = .ok name ∧ windBearing name = some w ∧
      ∃ n : Int, |b - (w : K) - 360 * n| ≤ 45 / 4 := by
  obtain ⟨h0, h1⟩ := pyFMod_bounds (b + 360) (m := 360) (by norm_num)
  have hdef : pyFMod (b + 360) 360 = b + 360 - 360 * (⌊(b + 360) / 360⌋ : K) := rfl
  generalize ⌊(b + 360) / 360⌋ = N at hdef
  have hn := nearest_abs (2 * pyFMod (b + 360) 360 / 45)
  have hn0 : 0 ≤ nearest (2 * pyFMod (b + 360) 360 / 45) := nearest_sign_nonneg (by positivity)
  have hn16 : nearest (2 * pyFMod (b + 360) 360 / 45) ≤ 16 := by
    have h2 : 2 * pyFMod (b + 360) 360 / 45 ≤ ((16 : Int) : K) := by
      push_cast
      rw [div_le_iff₀ (by norm_num)]
      linarith
    have := nearest_mono h2
    rwa [nearest_intCast] at this
  simp only [bearing2cardinal]
  generalize nearest (2 * pyFMod (b + 360) 360 / 45) = i at *
  rw [hdef] at hn
  have hb : ∀ m : K, (i : K) = m → |b - m * (45 / 2) - 360 * ((N - 1 : Int) : K)| ≤ 45 / 4 := by
    intro m hm
    rw [hm] at hn
    rw [abs_le] at hn ⊢
    push_cast
    constructor <;> linarith [hn.1, hn.2]
  have hb' : ∀ m : K, (i : K) = m → |b - (m - 16) * (45 / 2) - 360 * (N : K)| ≤ 45 / 4 := by
    intro m hm
    rw [hm] at hn
    rw [abs_le] at hn ⊢
    constructor <;> linarith [hn.1, hn.2]
  have table : ∀ i : Fin 17, ∃ name, pyIndex cardinals (((i : Nat) : Int) % 16) = .ok name ∧
      windBearing name = some ((((i : Nat) % 16 : Nat) : ℚ) * (45 / 2)) := by
    intro i
    fin_cases i <;> exact ⟨_, rfl, by decide +kernel⟩
  obtain ⟨j, rfl⟩ : ∃ j : Nat, i = j := ⟨i.toNat, by omega⟩
  obtain ⟨name, ht1, ht2⟩ := table ⟨j, by omega⟩
  refine ⟨name, _, ht1, ht2, ?_⟩
  by_cases hj : j = 16
  · subst hj
    refine ⟨N, ?_⟩
    have := hb' 16 (by norm_num)
    simpa using this
  · have hj' : j % 16 = j := Nat.mod_eq_of_lt (by omega)
    refine ⟨N - 1, ?_⟩
    have := hb j (by push_cast; rfl)
    simp only [hj']
    push_cast at this ⊢
    exact this

/-- **C19**: the hour is the position of the hand on a clock face, 30 degrees an hour, with the bearing counted counter-clockwise: it
is the only number in (0, 12] such that `30 * h` and `-b` are the same angle. -/
theorem C19_hours (b h : K) : h = bearing2hours b ↔ 0 < h ∧ h ≤ 12 ∧ ∃ n : Int, 30 * h = -b + 360 * n := by
  obtain ⟨h0, h1⟩ := pyFMod_bounds (b + 360) (m := 360) (by norm_num)
  have hdef : pyFMod (b + 360) 360 = b + 360 - 360 * (⌊(b + 360) / 360⌋ : K) := rfl
  have hb : bearing2hours b = 12 - pyFMod (b + 360) 360 / 30 := rfl
  generalize pyFMod (b + 360) 360 = r at *
  generalize ⌊(b + 360) / 360⌋ = N at *
  have hN : 30 * (12 - r / 30) = -b + 360 * ((N : Int) : K) := by rw [hdef]; ring
  have hlo : 0 < 12 - r / 30 := by linarith
  have hhi : 12 - r / 30 ≤ 12 := by linarith
  constructor
  · rintro rfl
    rw [hb]
    exact ⟨hlo, hhi, N, hN⟩
  · rintro ⟨k0, k1, n, hn⟩
    rw [hb]
    have hlt : ((n - N : Int) : K) < 1 := by push_cast; linarith
    have hgt : (-1 : K) < ((n - N : Int) : K) := by push_cast; linarith
    have e1 : n - N < 1 := by exact_mod_cast hlt
    have e2 : -1 < n - N := by exact_mod_cast hgt
    have : n = N := by omega
    subst this
    linarith

/-- **C19**: the answers depend on the bearing modulo 360 only, and the hour is in (0, 12]. -/
theorem C19_periodic (b : K) (n : Int) :
    bearing2cardinal (b + 360 * n) = bearing2cardinal b ∧ bearing2hours (b + 360 * n) = bearing2hours b ∧
      0 < bearing2hours b ∧ bearing2hours b ≤ 12 := by
  have h : pyFMod (b + 360 * n + 360) 360 = pyFMod (b + 360) 360 := by
    rw [← pyFMod_add_mul (b + 360) (m := 360) (by norm_num) n]
    congr 1; ring
  obtain ⟨h0, h1⟩ := pyFMod_bounds (b + 360) (m := 360) (by norm_num)
  refine ⟨by simp only [bearing2cardinal, h], by simp only [bearing2hours, h], ?_, ?_⟩
  · have : pyFMod (b + 360) 360 / 30 < 12 := by rw [div_lt_iff₀ (by norm_num)]; linarith
    simp only [bearing2hours]; linarith
  · have : 0 ≤ pyFMod (b + 360) 360 / 30 := by positivity
    simp only [bearing2hours]; linarith

end

example : bearing2cardinal (-100 : ℚ) = .ok "E" ∧ bearing2cardinal (350 : ℚ) = .ok "N" ∧
    bearing2cardinal (1000 : ℚ) = .ok "E" := by decide +kernel
example : bearing2hours (90 : ℚ) = 9 ∧ bearing2hours (-45 : ℚ) = 3 / 2 ∧ bearing2hours (0 : ℚ) = 12 := by decide +kernel

end Coral
