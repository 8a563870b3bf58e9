import Verif.Model.Proj
import Verif.Model.BBox
import Verif.PyList

/-!
# Model of `geocentroid`, `coral/coord.py`

Over the real numbers; see `Verif.PyReal`.
-/
namespace Coral
namespace Geoc
open Real Proj

noncomputable section

/-- coord.py:200-204: the sums over the sides of a polygon: `cx`, `cy`, `sa`. -/
def sideSums (xys : List (ℝ × ℝ)) : ℝ × ℝ × ℝ :=
  (xys.zip (xys.drop 1 ++ xys.take 1)).foldl (fun s ab =>
    let f := ab.1.1 * ab.2.2 - ab.2.1 * ab.1.2
    (s.1 + (ab.1.1 + ab.2.1) * f, s.2.1 + (ab.1.2 + ab.2.2) * f, s.2.2 + f)) (0, 0, 0)

/-- coord.py:199-207: one polygon, its centroid and its weight. -/
def polyCentroid (xys : List (ℝ × ℝ)) : Py ((ℝ × ℝ) × ℝ) := do
  let s := sideSums xys
  let d := 3 * s.2.2
  let cx ← rdiv s.1 d
  let cy ← rdiv s.2.1 d
  return ((cx, cy), s.2.2)

/-- coord.py:208-214: all polygons together. -/
def weighted (cw : List ((ℝ × ℝ) × ℝ)) : Py (ℝ × ℝ) := do
  let s : ℝ × ℝ × ℝ := cw.foldl (fun s c => (s.1 + c.1.1 * c.2, s.2.1 + c.1.2 * c.2, s.2.2 + c.2)) (0, 0, 0)
  let cx ← rdiv s.1 s.2.2
  let cy ← rdiv s.2.1 s.2.2
  return (cx, cy)

/-- coord.py:193-215: one round of the loop, from the centre `c0`. -/
def round (region : List (List (ℝ × ℝ))) (c0 : ℝ × ℝ) : Py (ℝ × ℝ) := do
  let prj := Sphere.new (some c0) none
  let cw ← region.mapM (fun poly => do
    let xys ← poly.mapM (fun p => AzimuthalEqualArea.geo2rect prj p.1 p.2)
    polyCentroid xys)
  let c ← weighted cw
  AzimuthalEqualArea.rect2geo prj c.1 c.2

/-- coord.py:192-219: the terminating executions of the loop. -/
inductive Loop (region : List (List (ℝ × ℝ))) (epsilon : ℝ) : ℝ × ℝ → Py (ℝ × ℝ) → Prop
  | stop {c0 c1} : round region c0 = .ok c1 → |c1.1 - c0.1| ≤ epsilon ∧ |c1.2 - c0.2| ≤ epsilon → Loop region epsilon c0 (.ok c1)
  | next {c0 c1 r} : round region c0 = .ok c1 → ¬ (|c1.1 - c0.1| ≤ epsilon ∧ |c1.2 - c0.2| ≤ epsilon) → Loop region epsilon c1 r → Loop region epsilon c0 r
  | raise {c0 e} : round region c0 = .error e → Loop region epsilon c0 (.error e)

/-- bbox.py:68-75 with a right side that may be `None`, as in coord.py:188. -/
def orNone (b : BBox ℝ) : Option (BBox ℝ) → Option (BBox ℝ)
  | none => if b.truthy then some b else none
  | some o => some (b.union o)

/-- coord.py:186-188: the box of the region. -/
def regionBox (region : List (List (ℝ × ℝ))) : Py (Option (BBox ℝ)) :=
  region.foldlM (fun bb poly => do
    let b ← BBox.ofPoints poly
    return orNone b bb) none

/-- coord.py:184-219: what `geocentroid(region, bb, epsilon)` returns or raises, if it ends. -/
inductive Geocentroid (region : List (List (ℝ × ℝ))) (bb : Option (BBox ℝ)) (epsilon : Option ℝ) : Py (ℝ × ℝ) → Prop
  | given {b r} : bb = some b → Loop region (epsilon.getD 1e-10) b.center r → Geocentroid region bb epsilon r
  | found {b r} : bb = none → regionBox region = .ok (some b) → Loop region (epsilon.getD 1e-10) b.center r → Geocentroid region bb epsilon r
  | empty : bb = none → regionBox region = .ok none → Geocentroid region bb epsilon (.error .attributeError)
  | raise {e} : bb = none → regionBox region = .error e → Geocentroid region bb epsilon (.error e)

end
end Geoc
end Coral
