import Verif.Model.FloatsO

/-!
# Arithmetic on floats: the oblique Mercator projection, and the scale factors

As in `Model/FloatsT.lean`, every operation on floats is rounded (`fl`), numbers are not infinite, and the functions of the C library are parameters.
-/
namespace Coral
namespace Flt

/-- The functions of the C library that proj.py:195-220 calls through `math` beside those of `TransLib`. -/
structure ObliqLib extends TransLib where
  atan : ℚ → ℚ
  tanh : ℚ → ℚ

/-- The library is correctly rounded. -/
structure ObliqLib.Rounds (m : ObliqLib) : Prop where
  trans : m.toTransLib.Rounds
  atan : ∀ x : ℚ, Nearest (Real.arctan x) (m.atan x)
  tanh : ∀ x : ℚ, Nearest (Real.tanh x) (m.tanh x)

/-- An `ObliqMercator`: the attributes that proj.py:74-78 set. -/
structure Oblique where
  lon0 : ℚ
  lat0 : ℚ
  r : ℚ

/-- proj.py:69-78 `ObliqMercator(origin, radius)`; the origin is given in degrees. -/
def Oblique.init (lon0 lat0 r : ℚ) : Oblique := ⟨radians lon0, radians lat0, r⟩

/-- proj.py:198 and 218: the number `a`. -/
def Oblique.a (m : ObliqLib) (p : Oblique) (lon lat : ℚ) : ℚ :=
  fl (fl (m.sin p.lat0 * m.sin (radians lat)) - fl (fl (m.cos p.lat0 * m.cos (radians lat)) * m.sin (fl (radians lon - p.lon0))))

/-- proj.py:199: the number `v`. -/
def Oblique.v (m : ObliqLib) (p : Oblique) (lon lat : ℚ) : ℚ :=
  fl (fl (m.tan (radians lat) * m.cos p.lat0) + fl (m.sin p.lat0 * m.sin (fl (radians lon - p.lon0))))

/-- proj.py:195-203 `ObliqMercator.geo2rect` -/
def Oblique.geo2rect (m : ObliqLib) (p : Oblique) (lon lat : ℚ) : Py (ℚ × ℚ) := do
  let q ← div (p.v m lon lat) (m.cos (fl (radians lon - p.lon0)))
  let x := fl (p.r * m.atan q)
  let y ← m.pyAtanh (p.a m lon lat)
  return (x, fl (p.r * y))

/-- proj.py:205-213 `ObliqMercator.rect2geo` -/
def Oblique.rect2geo (m : ObliqLib) (p : Oblique) (x y : ℚ) : Py (ℚ × ℚ) := do
  let c := m.cos p.lat0
  let s := m.sin p.lat0
  let xr ← div x p.r
  let yr ← div y p.r
  let q ← div (fl (c * m.sin xr)) (m.cosh yr)
  let lat ← pyAsin m.asin (fl (fl (s * m.tanh yr) + q))
  let v := fl (fl (s * m.sin xr) - fl (c * m.sinh yr))
  let t ← div v (m.cos xr)
  let lon := fl (p.lon0 + m.atan t)
  return (degrees lon, degrees lat)

/-- proj.py:188-189 and 219: `1 / math.sqrt(1 - b * b)` -/
def scaleOf (m : Libm) (b : ℚ) : Py ℚ := do
  let s ← m.pySqrt (fl (1 - fl (b * b)))
  div 1 s

/-- proj.py:186-190 `TransMercator.scale` -/
def Transverse.scale (m : TransLib) (p : Transverse) (lon lat : ℚ) : Py ℚ := scaleOf m.toLibm (p.b m lon lat)

/-- proj.py:215-220 `ObliqMercator.scale` -/
def Oblique.scale (m : ObliqLib) (p : Oblique) (lon lat : ℚ) : Py ℚ := scaleOf m.toLibm (p.a m lon lat)

end Flt
end Coral
