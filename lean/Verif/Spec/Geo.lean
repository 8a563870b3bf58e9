import Verif.Model.Geo
import Verif.Spec.Shapefile

/-!
# Areas and partitions
-/
namespace Coral
namespace Geo

section
variable {K : Type} [Field K]

/-- Twice the area by the shoelace formula: the sum of the cross products of consecutive vertices. -/
def lace : List (K × K) → K
  | a :: b :: l => (a.1 * b.2 - b.1 * a.2) + lace (b :: l)
  | _ => 0

/-- A point as the list that `coords` holds. -/
def flat (p : K × K) : List K := [p.1, p.2]

/-- The closed ring through some vertices. -/
def close {α : Type} : List α → List α
  | [] => []
  | a :: l => a :: l ++ [a]

end

/-- The parts of a shape: the first starts at 0, the others where they do, in order, within the points. -/
def Starts (n : Nat) (parts : List Int) : Prop := parts.head? = some 0 ∧ parts.Pairwise (· ≤ ·) ∧ ∀ p ∈ parts, p ≤ n

/-- All rings of the result, in order. -/
def rings {K : Type} : Interface K → List (List (List K))
  | .lineString c => [c]
  | .multiLineString c => c
  | .polygon c => c
  | .multiPolygon c => c.flatten
  | _ => []

end Geo
end Coral
