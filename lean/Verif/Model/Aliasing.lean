import Verif.Model.Gradient
import Verif.Model.Shapefile

/-!
# Model of what `Gradient(points)` and `Writer.poly(parts)` do to their arguments
-/
namespace Coral

section
variable {K : Type} [Field K] [LinearOrder K]

/-- gradient.py:25-32 `Gradient(points)`: the gradient, and the list of the caller afterwards. -/
def Gradient.initArg (points : List (K × List K)) : Py (Gradient K × List (K × List K)) := do
  let points ← extendStops (sortStops points)
  return (⟨points.map Prod.fst, points.map Prod.snd⟩, points)

end

namespace Shapefile

/-- The lists of numbers by their addresses; the addresses from `next` on are not in use. -/
structure Heap (D : Type) where
  lists : Nat → List D
  next : Nat

/-- A point as it is passed to `poly`: a tuple, or a list, which others may refer to. -/
inductive Pt (D : Type)
  | tuple (v : List D)
  | list (a : Nat)
  deriving DecidableEq

section
variable {D : Type} [Double D]

def Heap.set (h : Heap D) (a : Nat) (v : List D) : Heap D := { h with lists := fun b => if b = a then v else h.lists b }

/-- `p == q`: a list and a tuple are never equal. -/
def Pt.same (h : Heap D) : Pt D → Pt D → Bool
  | .tuple v, .tuple w => v = w
  | .list a, .list b => h.lists a = h.lists b
  | _, _ => false

/-- shapefile.py:952-953 on one part, which is a list. -/
def closeArg (h : Heap D) (part : List (Pt D)) : Py (List (Pt D)) :=
  match part.head?, part.getLast? with
  | some a, some b => .ok (if a.same h b then part else part ++ [a])
  | _, _ => .error .indexError

/-- shapefile.py:949-953. That two parts may be the same list is not modelled. -/
def closeArgs (h : Heap D) (parts : List (List (Pt D))) (shapeType : Int) : Py (List (List (Pt D))) :=
  if shapeType ∈ ([5, 15, 25, 31] : List Int) then parts.mapM (closeArg h) else .ok parts

/-- shapefile.py:956-962: the address of the point in the shape. -/
def addPoint (h : Heap D) : Pt D → Heap D × Nat
  | .list a => (h.set a (pad4 (h.lists a)), a)
  | .tuple v => ({ h.set h.next (pad4 v) with next := h.next + 1 }, h.next)

/-- shapefile.py:954-962: the loops over the parts and their points. -/
def addPoints : Heap D → List (Pt D) → Heap D × List Nat
  | h, [] => (h, [])
  | h, p :: ps =>
    let (h, a) := addPoint h p
    let (h, as) := addPoints h ps
    (h, a :: as)

/-- shapefile.py:940-969 `poly(parts, shapeType)`: the heap, the parts of the caller and the addresses of the points of the new shape. -/
def polyArgs (h : Heap D) (parts : List (List (Pt D))) (shapeType : Int) : Py (Heap D × List (List (Pt D)) × List Nat) := do
  let parts ← closeArgs h parts shapeType
  return ((addPoints h parts.flatten).1, parts, (addPoints h parts.flatten).2)

end

end Shapefile
end Coral
