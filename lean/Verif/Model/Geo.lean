import Verif.Model.Shapefile
import Mathlib.Algebra.Field.Basic

/-!
# Model of `coral/shapefile.py`: `signed_area` and `_Shape.__geo_interface__`

Coordinates are elements of an ordered field (exact arithmetic).
-/
namespace Coral
namespace Geo

open Shapefile (Shape attr)

/-- Where `l[i:]` starts and `l[:i]` ends. -/
def sliceAt (n : Nat) (i : Int) : Nat := if i < 0 then (i + n).toNat else i.toNat

/-- `l[a:b]` -/
def slice {α : Type} (l : List α) (a b : Int) : List α := (l.take (sliceAt l.length b)).drop (sliceAt l.length a)

/-- `l[a:]` -/
def sliceFrom {α : Type} (l : List α) (a : Int) : List α := l.drop (sliceAt l.length a)

section
variable {K : Type} [Field K] [LinearOrder K]

/-- The first two coordinates. -/
def two : List K → Option (K × K)
  | x :: y :: _ => some (x, y)
  | _ => none

/-- shapefile.py:109 `xs, ys = map(list, zip(*coords))`: `zip` goes as far as the shortest point, which has to have two coordinates. -/
def xsys (coords : List (List K)) : Py (List K × List K) :=
  match coords.mapM two with
  | some (p :: ps) => if coords.any (fun c => c.length = 2) then .ok ((p :: ps).map Prod.fst, (p :: ps).map Prod.snd) else .error .valueError
  | _ => .error .valueError

/-- shapefile.py:104-112 `signed_area`. The list positions in the sum exist. -/
def signedArea (coords : List (List K)) : Py K := do
  let (xs, ys) ← xsys coords
  let xs := xs ++ [← pyIndex xs 1]
  let ys := ys ++ [← pyIndex ys 1]
  return ((List.range' 1 (coords.length - 1)).map (fun i => xs.getD i 0 * (ys.getD (i + 1) 0 - ys.getD (i - 1) 0))).sum / 2

/-- What `__geo_interface__` returns; `none` is Python's `None`. -/
inductive Interface (K : Type)
  | point (coordinates : List K)
  | multiPoint (coordinates : List (List K))
  | lineString (coordinates : List (List K))
  | multiLineString (coordinates : List (List (List K)))
  | polygon (coordinates : List (List (List K)))
  | multiPolygon (coordinates : List (List (List (List K))))
  | none
  deriving DecidableEq

/-- shapefile.py:149-157, 171-179, the loop with `ps` set: the slices up to the last part. -/
def partsLoop (points : List (List K)) : Int → List Int → List (List (List K))
  | ps, [] => [sliceFrom points ps]
  | ps, part :: parts => slice points ps part :: partsLoop points part parts

/-- shapefile.py:147-157, 169-179: without parts the variable `part` has no value after the loop. -/
def coordinatesOf (points : List (List K)) : List Int → Py (List (List (List K)))
  | [] => .error .unboundLocalError
  | part :: parts => .ok (partsLoop points part parts)

/-- shapefile.py:182-188: the loop over the rings after the first. -/
def polysLoop : List (List (List (List K))) → List (List (List K)) → List (List (List K)) → Py (List (List (List (List K))))
  | polys, poly, [] => .ok (polys ++ [poly])
  | polys, poly, coord :: coords => do
    let a ← signedArea coord
    if a < 0 then polysLoop (polys ++ [poly]) [coord] coords else polysLoop polys (poly ++ [coord]) coords

/-- shapefile.py:180-198; there is a first ring. -/
def polygons (coordinates : List (List (List K))) : Py (Interface K) :=
  match coordinates with
  | [] => .error .indexError
  | c :: cs => do
    let polys ← polysLoop [] [c] cs
    match polys with
    | [poly] => return .polygon poly
    | _ => return .multiPolygon polys

/-- shapefile.py:128-198 `__geo_interface__`. -/
def geo (s : Shape K) : Py (Interface K) :=
  if s.shapeType ∈ [some 1, some 21, some 11] then
    match s.points with
    | [] => .error .indexError
    | p :: _ => .ok (.point p)
  else if s.shapeType ∈ [some 8, some 28, some 18] then .ok (.multiPoint s.points)
  else if s.shapeType ∈ [some 3, some 23, some 13] then do
    let parts ← attr s.parts
    if parts.length = 1 then return .lineString s.points else return .multiLineString (← coordinatesOf s.points parts)
  else if s.shapeType ∈ [some 5, some 25, some 15] then do
    let parts ← attr s.parts
    if parts.length = 1 then return .polygon [s.points] else polygons (← coordinatesOf s.points parts)
  else .ok .none

end

end Geo
end Coral
