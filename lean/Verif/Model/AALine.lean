import Verif.Model.Raster

/-!
# Model of `aaline` and the anti-aliased outlines of `coral/raster.py`

Numbers are elements of an ordered field with a floor function (exact arithmetic).
-/
namespace Coral

section
variable {K : Type} [Field K] [LinearOrder K] [FloorRing K]

/-- raster.py:109 `math.modf(x)[0]`, with the sign of `x` -/
def fpart (x : K) : K := x - (pyTrunc x : K)

/-- raster.py:130-135, 146-151, 157-162: the two assignments in column `x` (row, if `steep`) next to the ordinate `y`; a pixel and its alpha each. -/
def aaPut (steep : Bool) (x : Int) (y alpha1 alpha2 : K) : List ((Int × Int) × K) :=
  if steep then [((pyTrunc y, x), alpha1), ((pyTrunc y + 1, x), alpha2)]
  else [((x, pyTrunc y), alpha1), ((x, pyTrunc y + 1), alpha2)]

/-- raster.py:123-135 and 139-151: an end of the line. -/
def aaEnd (steep : Bool) (gradient : K) (p : K × K) : List ((Int × Int) × K) :=
  let xend := nearest p.1
  let yend := p.2 + gradient * ((xend : K) - p.1)
  let xgap := 1 - fpart (p.1 + 1 / 2)
  aaPut steep xend yend ((1 - fpart yend) * xgap) (fpart yend * xgap)

/-- raster.py:154-163: `n` inner columns from `x` on. -/
def aaInner (steep : Bool) (gradient : K) : Nat → Int → K → List ((Int × Int) × K)
  | 0, _, _ => []
  | n + 1, x, intery => aaPut steep x intery (1 - fpart intery) (fpart intery) ++ aaInner steep gradient n (x + 1) (intery + gradient)

/-- raster.py:118-163, with the ends in order and, if `steep`, the coordinates exchanged. -/
def aaDraw (steep : Bool) (p q : K × K) : Py (List ((Int × Int) × K)) :=
  if q.1 - p.1 = 0 then .error .zeroDivisionError
  else
    let gradient := (q.2 - p.2) / (q.1 - p.1)
    let intery := p.2 + gradient * ((nearest p.1 : K) - p.1) + gradient
    .ok (aaEnd steep gradient p ++ aaEnd steep gradient q ++
      aaInner steep gradient (nearest q.1 - (nearest p.1 + 1)).toNat (nearest p.1 + 1) intery)

/-- raster.py:105-163: the assignments made by `aaline`, in order: a pixel and the alpha added to the colour. -/
def aaline (start stop : K × K) : Py (List ((Int × Int) × K)) :=
  let steep : Bool := decide (|stop.2 - start.2| > |stop.1 - start.1|)
  let p := if steep then (start.2, start.1) else start
  let q := if steep then (stop.2, stop.1) else stop
  if p.1 > q.1 then aaDraw steep q p else aaDraw steep p q

/-- A gray colour: a number, or a tuple with one component. -/
inductive GrayInk (K : Type) where
  | num (v : Int)
  | tuple (v : K)

/-- raster.py:105-163 on a `GrayCanvas`; `color + (alpha1,)` (131, 134) raises for a number. -/
def Gray.aaline (c : Gray) (start stop : K × K) (color : GrayInk K) : Py Gray := do
  let ws ← Coral.aaline start stop
  match color with
  | .num _ => .error .typeError
  | .tuple v => c.writes (ws.map fun w => (w.1, .va v w.2))

/-- raster.py:168-171 with `aa` left at the default of `GrayCanvas` (210), `True`. -/
def Gray.strokeAA (c : Gray) (points : List (K × K)) (color : GrayInk K) : Py Gray :=
  (closedEdges points).foldlM (fun c e => c.aaline e.1 e.2 color) c

/-- raster.py:105-163 on a `ColorCanvas`, with a colour of three components. -/
def Colour.aaline (c : Colour) (start stop : K × K) (color : K × K × K) : Py Colour := do
  let ws ← Coral.aaline start stop
  c.writes (ws.map fun w => (w.1, .rgba color.1 color.2.1 color.2.2 w.2))

/-- raster.py:168-171 with `aa` left at the default of `ColorCanvas` (251), `True`. -/
def Colour.strokeAA (c : Colour) (points : List (K × K)) (color : K × K × K) : Py Colour :=
  (closedEdges points).foldlM (fun c e => c.aaline e.1 e.2 color) c

end
end Coral
