import Verif.Model.FloatsN

/-!
# Arithmetic on floats: the transverse Mercator projection

As in `Model/FloatsT.lean`, every operation on floats is rounded (`fl`), numbers are not infinite, and the functions of the C library are parameters.
-/
namespace Coral
namespace Flt

/-- The functions of the C library that proj.py:166-184 calls through `math` beside those of `Libm`. -/
structure TransLib extends Libm where
  tan : ℚ → ℚ
  asin : ℚ → ℚ
  sinh : ℚ → ℚ
  cosh : ℚ → ℚ
  atanh : ℚ → ℚ

/-- The library is correctly rounded. -/
structure TransLib.Rounds (m : TransLib) : Prop where
  base : m.toLibm.Rounds
  tan : ∀ x : ℚ, Nearest (Real.tan x) (m.tan x)
  asin : RoundsAsin m.asin
  sinh : ∀ x : ℚ, Nearest (Real.sinh x) (m.sinh x)
  cosh : ∀ x : ℚ, Nearest (Real.cosh x) (m.cosh x)
  atanh : ∀ x : ℚ, -1 < x → x < 1 → Nearest (Real.artanh x) (m.atanh x)

/-- `math.atanh` raises `ValueError` for numbers that are not between -1 and 1. -/
def TransLib.pyAtanh (m : TransLib) (x : ℚ) : Py ℚ := if x ≤ -1 ∨ 1 ≤ x then .error .valueError else .ok (m.atanh x)

/-- A `TransMercator`: the attributes that proj.py:74-78 set. -/
structure Transverse where
  lon0 : ℚ
  lat0 : ℚ
  r : ℚ

/-- proj.py:69-78 `TransMercator(origin, radius)`; the origin is given in degrees. -/
def Transverse.init (lon0 lat0 r : ℚ) : Transverse := ⟨radians lon0, radians lat0, r⟩

/-- proj.py:171: the number `b`. -/
def Transverse.b (m : TransLib) (p : Transverse) (lon lat : ℚ) : ℚ := fl (m.cos (radians lat) * m.sin (fl (radians lon - p.lon0)))

/-- proj.py:169-177 `TransMercator.geo2rect`: the call ends with `res`. -/
def Transverse.Geo2rect (m : TransLib) (p : Transverse) (lon lat : ℚ) (res : Py (ℚ × ℚ)) : Prop :=
  if p.b m lon lat = -1 ∨ p.b m lon lat = 1 then res = .error .projectionError
  else ∃ v, CorangleEnds (fl (m.atan2 (m.tan (radians lat)) (m.cos (fl (radians lon - p.lon0))) - p.lat0)) v ∧ res = (do
    let h ← m.pyAtanh (p.b m lon lat)
    return (fl (p.r * h), fl (p.r * v)))

/-- proj.py:179-184 `TransMercator.rect2geo` -/
def Transverse.rect2geo (m : TransLib) (p : Transverse) (x y : ℚ) : Py (ℚ × ℚ) := do
  let yr ← div y p.r
  let xr ← div x p.r
  let d := fl (yr + p.lat0)
  let lon := fl (p.lon0 + m.atan2 (m.sinh xr) (m.cos d))
  let q ← div (m.sin d) (m.cosh xr)
  let lat ← pyAsin m.asin q
  return (degrees lon, degrees lat)

end Flt
end Coral
