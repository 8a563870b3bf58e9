import Verif.Model.FloatsM
import Verif.Model.FloatsN

/-!
# Arithmetic on floats: the conic equal-area projection

As in `Model/FloatsT.lean`, every operation on floats is rounded (`fl`), numbers are not infinite, and the functions of the C library are
parameters. The parallels and the radius are given; without parallels `n` is zero and the constructor fails, see `Props/Proj.lean`.
-/
namespace Coral
namespace Flt

/-- proj.py:80-91, 394-402: the attributes of a `ConicEqualArea` that its methods use. -/
structure Cone where
  r : ℚ
  n : ℚ
  c : ℚ
  p0 : ℚ

/-- proj.py:400: `n`. -/
def Cone.half (m : Libm) (lat1 lat2 : ℚ) : ℚ := fl (fl (m.sin (radians lat1) + m.sin (radians lat2)) / 2)

/-- proj.py:396-397, 401: `c`. -/
def Cone.const (m : Libm) (lat1 lat2 : ℚ) : ℚ :=
  let coslat1 := m.cos (radians lat1)
  fl (fl (coslat1 * coslat1) + fl (fl (2 * Cone.half m lat1 lat2) * m.sin (radians lat1)))

/-- proj.py:82-91, 394-402 `ConicEqualArea((lat1, lat2), r)` -/
def Cone.init (m : Libm) (lat1 lat2 r : ℚ) : Py Cone := do
  let s ← m.pySqrt (Cone.const m lat1 lat2)
  let p0 ← div (fl (r * s)) (Cone.half m lat1 lat2)
  return ⟨r, Cone.half m lat1 lat2, Cone.const m lat1 lat2, p0⟩

/-- proj.py:407, 433: what the root is taken of. -/
def Cone.under (m : Libm) (q : Cone) (lat : ℚ) : ℚ := fl (q.c - fl (fl (2 * q.n) * m.sin (radians lat)))

/-- proj.py:404-411 `ConicEqualArea.geo2rect` -/
def Cone.geo2rect (m : Libm) (q : Cone) (lon lat : ℚ) : Py (ℚ × ℚ) := do
  let s ← m.pySqrt (q.under m lat)
  let p ← div (fl (q.r * s)) q.n
  let t := fl (q.n * radians lon)
  return (fl (p * m.sin t), fl (q.p0 - fl (p * m.cos t)))

/-- proj.py:413-425 `ConicEqualArea.rect2geo` -/
def Cone.rect2geo (m : Libm) (asin : ℚ → ℚ) (q : Cone) (x y : ℚ) : Py (ℚ × ℚ) := do
  let p ← m.pySqrt (fl (fl (x * x) + fl (fl (q.p0 - y) * fl (q.p0 - y))))
  let t := if q.n < 0 then m.atan2 (-x) (fl (-q.p0 - -y)) else m.atan2 x (fl (q.p0 - y))
  let lon ← div t q.n
  let pnr ← div (fl (p * q.n)) q.r
  let s ← div (fl (q.c - fl (pnr * pnr))) (fl (2 * q.n))
  let lat ← pyAsin asin s
  return (degrees lon, degrees lat)

/-- proj.py:427-434 `ConicEqualArea.scale` -/
def Cone.scale (m : Libm) (q : Cone) (lat : ℚ) : Py ℚ := do
  let s ← m.pySqrt (q.under m lat)
  div (m.cos (radians lat)) s

end Flt
end Coral
