import Mathlib.Algebra.Order.Field.Basic
import Mathlib.Algebra.Order.Floor.Ring

/-!
# Specification of gradients

A gradient is a list of stops `(position, colour)` in any order; where several stops share a position, the earlier one
counts when approached from the left and the later one when left to the right.
-/
namespace Coral
variable {K : Type} [Field K] [LinearOrder K]

/-- `c` is the colour of the first stop at position `x`. -/
def StopAt (stops : List (K × List K)) (x : K) (c : List K) : Prop :=
  ∃ l r, stops = l ++ (x, c) :: r ∧ ∀ q ∈ l, q.1 ≠ x

/-- `(p, c)` is the stop next below `x`: the greatest position below `x`, the last such stop. -/
def StopBelow (stops : List (K × List K)) (x p : K) (c : List K) : Prop :=
  p < x ∧ (∀ q ∈ stops, q.1 < x → q.1 ≤ p) ∧ ∃ l r, stops = l ++ (p, c) :: r ∧ ∀ q ∈ r, q.1 ≠ p

/-- `(p, c)` is the stop next above `x`: the smallest position above `x`, the first such stop. -/
def StopAbove (stops : List (K × List K)) (x p : K) (c : List K) : Prop :=
  x < p ∧ (∀ q ∈ stops, x < q.1 → p ≤ q.1) ∧ ∃ l r, stops = l ++ (p, c) :: r ∧ ∀ q ∈ l, q.1 ≠ p

/-- The point at `x` on the straight line from `(pa, a)` to `(pb, b)`. -/
def lerp (pa a pb b x : K) : K := a + (b - a) * ((x - pa) / (pb - pa))

/-- `c` is what the stops prescribe at `x`: the stop at `x`; else the interpolation of the neighbours; else the colour
of the only neighbour. -/
def Prescribes (stops : List (K × List K)) (x : K) (c : List K) : Prop :=
  StopAt stops x c ∨
  ((∀ q ∈ stops, q.1 ≠ x) ∧ ∃ pa ca pb cb, StopBelow stops x pa ca ∧ StopAbove stops x pb cb ∧
    c = List.zipWith (fun a b => lerp pa a pb b x) ca cb) ∨
  ((∀ q ∈ stops, x < q.1) ∧ ∃ p, StopAbove stops x p c) ∨
  ((∀ q ∈ stops, q.1 < x) ∧ ∃ p, StopBelow stops x p c)

/-- `c` is the colour at the low end: of the first stop among those at the least position. -/
def LowEnd (stops : List (K × List K)) (c : List K) : Prop :=
  ∃ p, (∀ q ∈ stops, p ≤ q.1) ∧ StopAt stops p c

/-- `c` is the colour at the high end: of the last stop among those at the greatest position. -/
def HighEnd (stops : List (K × List K)) (c : List K) : Prop :=
  ∃ p, (∀ q ∈ stops, q.1 ≤ p) ∧ ∃ l r, stops = l ++ (p, c) :: r ∧ ∀ q ∈ r, q.1 ≠ p

end Coral
