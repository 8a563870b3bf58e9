import Verif.PyFloat
import Verif.Model.Coord
import Verif.Model.Raster
import Verif.Model.BBox

/-!
# Arithmetic on floats

Some functions again, with every operation rounded to a double (`fl`) instead of the exact arithmetic of the other models. `copysign`, `int`,
comparisons and negation are exact in Python.
-/
namespace Coral
namespace Flt

/-- coord.py:36, raster.py:30 `int(x + math.copysign(0.5, x))`. -/
def nearest (x : ℚ) : Int := pyTrunc (fl (x + copysign (1 / 2) x))

/-- raster.py:234-237 (and 279-282 for each channel): `beta = 1 - alpha`, `int(bg * beta + fg * alpha + 0.5)`. -/
def blend (bg fg alpha : ℚ) : Int :=
  let beta := fl (1 - alpha)
  pyTrunc (fl (fl (fl (bg * beta) + fl (fg * alpha)) + 1 / 2))

/-- bbox.py:128-130 `area`. -/
def area (b : BBox ℚ) : ℚ := fl (fl (b.x1 - b.x0) * fl (b.y1 - b.y0))

/-- bbox.py:65-66 `__bool__`. -/
def truthy (b : BBox ℚ) : Bool := decide (area b ≠ 0)

/-- bbox.py:68-75 `__or__`. -/
def union (a b : BBox ℚ) : BBox ℚ :=
  if !truthy a then b
  else if !truthy b then a
  else BBox.ofCorners (min a.x0 b.x0, min a.y0 b.y0) (max a.x1 b.x1, max a.y1 b.y1)

/-- bbox.py:77-86 `__and__`. -/
def inter (a b : BBox ℚ) : BBox ℚ :=
  if !truthy a || !truthy b then BBox.empty
  else
    let x0 := max a.x0 b.x0
    let y0 := max a.y0 b.y0
    let x1 := min a.x1 b.x1
    let y1 := min a.y1 b.y1
    if x0 ≥ x1 ∨ y0 ≥ y1 then BBox.empty else BBox.ofCorners (x0, y0) (x1, y1)

/-- bbox.py:114-118 `center`. -/
def center (b : BBox ℚ) : ℚ × ℚ := (fl (fl (b.x0 + b.x1) / 2), fl (fl (b.y0 + b.y1) / 2))

/-- bbox.py:155-161 `translate`. -/
def translate (b : BBox ℚ) (dx dy : ℚ) : BBox ℚ :=
  BBox.ofCorners (fl (b.x0 + dx), fl (b.y0 + dy)) (fl (b.x1 + dx), fl (b.y1 + dy))

/-- bbox.py:163-173 `scale`. -/
def scale (b : BBox ℚ) (factor : ℚ) : BBox ℚ :=
  let half := fl (factor / 2)
  let hw := fl (fl (b.x1 - b.x0) * half)
  let hh := fl (fl (b.y1 - b.y0) * half)
  let c := center b
  BBox.ofCorners (fl (c.1 - hw), fl (c.2 - hh)) (fl (c.1 + hw), fl (c.2 + hh))

end Flt
end Coral
