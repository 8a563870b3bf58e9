import Verif.Model.Floats
import Verif.Model.AALine
import Verif.Model.Frame

/-!
# Anti-aliased lines and grid cells on floats

`aaline` of `coral/raster.py`, `Frame.point` of `coral/frame.py` and `sqr_fit` of `coral/coord.py` with every operation rounded to a double (`fl`). `math.modf`, `int`, `abs` and comparisons are exact in Python.
Integers are taken as the floats with the same value, so differences of pixel coordinates are exact as long as they are below 2⁵³.
-/
namespace Coral
namespace Flt

/-- raster.py:123-135 and 139-151: an end of the line. -/
def aaEnd (steep : Bool) (gradient : ℚ) (p : ℚ × ℚ) : List ((Int × Int) × ℚ) :=
  let xend := nearest p.1
  let yend := fl (p.2 + fl (gradient * fl ((xend : ℚ) - p.1)))
  let xgap := fl (1 - fpart (fl (p.1 + 1 / 2)))
  aaPut steep xend yend (fl (fl (1 - fpart yend) * xgap)) (fl (fpart yend * xgap))

/-- raster.py:154-163: `n` inner columns from `x` on; the ordinate is a running sum. -/
def aaInner (steep : Bool) (gradient : ℚ) : Nat → Int → ℚ → List ((Int × Int) × ℚ)
  | 0, _, _ => []
  | n + 1, x, intery => aaPut steep x intery (fl (1 - fpart intery)) (fpart intery) ++ aaInner steep gradient n (x + 1) (fl (intery + gradient))

/-- raster.py:118-163, with the ends in order and, if `steep`, the coordinates exchanged. -/
def aaDraw (steep : Bool) (p q : ℚ × ℚ) : Py (List ((Int × Int) × ℚ)) :=
  let dx := fl (q.1 - p.1)
  let dy := fl (q.2 - p.2)
  if dx = 0 then .error .zeroDivisionError
  else
    let gradient := fl (dy / dx)
    let yend := fl (p.2 + fl (gradient * fl ((nearest p.1 : ℚ) - p.1)))
    .ok (aaEnd steep gradient p ++ aaEnd steep gradient q ++
      aaInner steep gradient (nearest q.1 - (nearest p.1 + 1)).toNat (nearest p.1 + 1) (fl (yend + gradient)))

/-- raster.py:105-163: the assignments made by `aaline`, in order: a pixel and the alpha added to the colour. -/
def aaline (start stop : ℚ × ℚ) : Py (List ((Int × Int) × ℚ)) :=
  let steep : Bool := decide (|fl (stop.2 - start.2)| > |fl (stop.1 - start.1)|)
  let p := if steep then (start.2, start.1) else start
  let q := if steep then (stop.2, stop.1) else stop
  if p.1 > q.1 then aaDraw steep q p else aaDraw steep p q

/-- raster.py:224-237: `c[x, y] = (fg, alpha)` on a `GrayCanvas`. -/
def graySet (fg : ℚ) (c : Gray) (x y : Int) (alpha : ℚ) : Py Gray := do
  let i := y * c.width + x
  let bg ← pyIndex c.data i
  let b ← byteOf (blend bg fg alpha)
  let data ← pySetItem c.data i b
  return { c with data }

/-- raster.py:105-163 on a `GrayCanvas`, in the colour `(fg,)`. -/
def grayAaline (c : Gray) (start stop : ℚ × ℚ) (fg : ℚ) : Py Gray := do
  let ws ← aaline start stop
  ws.foldlM (fun c w => graySet fg c w.1.1 w.1.2 w.2) c

/-- Python's `v // w` for floats (`float_floor_div` of CPython): `(v - fmod(v, w)) / w`, less one if the signs of the remainder and the divisor
differ, then moved to the nearest integer. -/
def floordiv (v w : ℚ) : ℚ :=
  let m := v - w * (pyTrunc (v / w) : ℚ)
  let div := fl (fl (v - m) / w)
  let div := if m ≠ 0 ∧ ¬ (w < 0 ↔ m < 0) then fl (div - 1) else div
  if fl (div - (⌊div⌋ : ℚ)) > 1 / 2 then fl ((⌊div⌋ : ℚ) + 1) else (⌊div⌋ : ℚ)

/-- frame.py:85-90; `geo2rect` is any function that returns floats or raises. -/
def point (geo2rect : ℚ → ℚ → Py (ℚ × ℚ)) (scale : ℚ) (p : ℚ × ℚ) : Py (ℚ × ℚ) := do
  let (x, y) ← geo2rect p.1 p.2
  if scale = 0 then .error .zeroDivisionError
  else return (floordiv x scale, floordiv y scale)

/-- coord.py:243-247: a generator over the points; a zero scale raises at the first point. -/
def sqrFit (m : ℚ) : List (ℚ × ℚ) → List (Int × Int) × Option PyErr
  | [] => ([], none)
  | (x, y) :: s =>
    if m = 0 then ([], some .zeroDivisionError)
    else
      let r := sqrFit m s
      ((nearest (fl (x / m)), nearest (fl (y / m))) :: r.1, r.2)

end Flt
end Coral
