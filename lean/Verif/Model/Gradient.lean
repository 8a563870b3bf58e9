import Verif.Py
import Mathlib.Data.List.Sort
import Mathlib.Algebra.Order.Field.Basic
import Mathlib.Algebra.Order.Floor.Ring

/-!
# Model of `coral/gradient.py`

Positions and channels are elements of an ordered field. A colour is a list of channels (a tuple of any length).
-/
namespace Coral

/-- gradient.py:23-32: the attributes of a `Gradient`. -/
structure Gradient (K : Type) where
  pos : List K
  rgb : List (List K)
  deriving DecidableEq

section
variable {K : Type} [Field K] [LinearOrder K]

/-- gradient.py:26 `points.sort(key=...)`; Python's sort is stable, and so is insertion sort. -/
def sortStops (points : List (K × List K)) : List (K × List K) :=
  points.insertionSort (fun p q => p.1 ≤ q.1)

/-- gradient.py:27-30: extend the sorted list to 0 and 1. -/
def extendStops (points : List (K × List K)) : Py (List (K × List K)) := do
  let first ← pyIndex points 0
  let points := if 0 < first.1 then (0, first.2) :: points else points
  let last ← pyIndex points (-1)
  return if last.1 < 1 then points ++ [(1, last.2)] else points

/-- gradient.py:25-32. What becomes of the list of the caller is modelled in `Model/Aliasing.lean`. -/
def Gradient.init (points : List (K × List K)) : Py (Gradient K) := do
  let points ← extendStops (sortStops points)
  return ⟨points.map Prod.fst, points.map Prod.snd⟩

/-- `bisect.bisect_left(pos, x)` on a sorted list: the number of leading elements below `x`. -/
def bisectLeft (pos : List K) (x : K) : Nat := (pos.takeWhile (· < x)).length

/-- gradient.py:34-45 -/
def Gradient.get (g : Gradient K) (x : K) : Py (List K) := do
  let ib := bisectLeft g.pos x
  let p ← pyIndex g.pos ib
  if p = x then pyIndex g.rgb ib
  else do
    let ia : Int := (ib : Int) - 1
    let pa ← pyIndex g.pos ia
    let pb ← pyIndex g.pos ib
    if pb - pa = 0 then .error .zeroDivisionError
    else do
      let fa := (pb - x) / (pb - pa)
      let fb := (x - pa) / (pb - pa)
      let ca ← pyIndex g.rgb ia
      let cb ← pyIndex g.rgb ib
      return List.zipWith (fun ia ib => ia * fa + ib * fb) ca cb

/-- A hexadecimal digit. -/
def hexChar (n : Nat) : Char := Nat.digitChar n

/-- Python's `hex`: an optional sign, `0x`, and the digits. -/
def pyHex (n : Int) : List Char :=
  (if n < 0 then ['-'] else []) ++ ['0', 'x'] ++ Nat.toDigits 16 n.natAbs

/-- Python's `int` of a number: truncation towards zero. -/
def intTrunc [FloorRing K] (x : K) : Int := if x < 0 then ⌈x⌉ else ⌊x⌋

/-- gradient.py:47-49 -/
def Gradient.getHex [FloorRing K] (g : Gradient K) (x : K) : Py (List Char) := do
  let c ← g.get x
  let ds ← c.mapM (fun i => pyIndex (pyHex (intTrunc (i * 15))) 2)
  return '#' :: ds

/-- gradient.py:51-54 -/
def grayStops : List (K × List K) := [(0, [0, 0, 0]), (1, [1, 1, 1])]

/-- gradient.py:56-60 -/
def bwrStops : List (K × List K) := [(0, [0, 0, 1]), (1 / 2, [1, 1, 1]), (1, [1, 0, 0])]

/-- gradient.py:62-68 -/
def heatStops : List (K × List K) := [(0, [0, 0, 1]), (1 / 4, [0, 1, 1]), (1 / 2, [0, 1, 0]), (3 / 4, [1, 1, 0]), (1, [1, 0, 0])]

/-- gradient.py:70-75 -/
def heightStops : List (K × List K) := [(0, [0, 36 / 100, 18 / 100]), (25 / 100, [84 / 100, 84 / 100, 39 / 100]), (57 / 100, [63 / 100, 39 / 100, 0]), (1, [1, 1, 1])]

end
end Coral
