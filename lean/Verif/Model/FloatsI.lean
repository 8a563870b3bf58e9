import Verif.PyFloat
import Verif.Model.Geo

/-!
# Arithmetic on floats: orientation of rings

As in `Model/Floats.lean`, every operation on floats is rounded (`fl`), and numbers are not infinite.
-/
namespace Coral
namespace Flt

/-- shapefile.py:104-112 `signed_area` on floats. The built-in `sum` adds from left to right (Python before 3.12). -/
def signedArea (coords : List (List ℚ)) : Py ℚ := do
  let (xs, ys) ← Geo.xsys coords
  let xs := xs ++ [← pyIndex xs 1]
  let ys := ys ++ [← pyIndex ys 1]
  let terms := (List.range' 1 (coords.length - 1)).map (fun i => fl (xs.getD i 0 * fl (ys.getD (i + 1) 0 - ys.getD (i - 1) 0)))
  return fl (terms.foldl (fun s t => fl (s + t)) 0 / 2)

/-- shapefile.py:182-188 on floats: the loop over the rings after the first. -/
def polysLoop : List (List (List (List ℚ))) → List (List (List ℚ)) → List (List (List ℚ)) → Py (List (List (List (List ℚ))))
  | polys, poly, [] => .ok (polys ++ [poly])
  | polys, poly, coord :: coords => do
    let a ← signedArea coord
    if a < 0 then polysLoop (polys ++ [poly]) [coord] coords else polysLoop polys (poly ++ [coord]) coords

/-- shapefile.py:180-198 on floats; there is a first ring. -/
def polygons (coordinates : List (List (List ℚ))) : Py (Geo.Interface ℚ) :=
  match coordinates with
  | [] => .error .indexError
  | c :: cs => do
    let polys ← polysLoop [] [c] cs
    match polys with
    | [poly] => return .polygon poly
    | _ => return .multiPolygon polys

/-- shapefile.py:128-198 `__geo_interface__` on floats: only polygons with several parts calculate. -/
def geo (s : Shapefile.Shape ℚ) : Py (Geo.Interface ℚ) :=
  if s.shapeType ∈ [some 5, some 25, some 15] then do
    let parts ← Shapefile.attr s.parts
    if parts.length = 1 then return .polygon [s.points] else polygons (← Geo.coordinatesOf s.points parts)
  else Geo.geo s

end Flt
end Coral
