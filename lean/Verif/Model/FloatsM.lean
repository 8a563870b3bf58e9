import Verif.Model.FloatsT

/-!
# Arithmetic on floats: the Mercator projection

As in `Model/FloatsT.lean`, every operation on floats is rounded (`fl`), numbers are not infinite, and the functions of the C library are parameters.
-/
namespace Coral
namespace Flt

/-- The functions of the C library that proj.py:110-122 calls through `math`. -/
structure MercLib where
  tan : ℚ → ℚ
  log : ℚ → ℚ
  sinh : ℚ → ℚ
  atan : ℚ → ℚ

/-- The library is correctly rounded. -/
structure MercLib.Rounds (m : MercLib) : Prop where
  tan : ∀ x : ℚ, Nearest (Real.tan x) (m.tan x)
  log : ∀ x : ℚ, 0 < x → Nearest (Real.log x) (m.log x)
  sinh : ∀ x : ℚ, Nearest (Real.sinh x) (m.sinh x)
  atan : ∀ x : ℚ, Nearest (Real.arctan x) (m.atan x)

/-- `math.log` raises `ValueError` for numbers that are not positive. -/
def MercLib.pyLog (m : MercLib) (x : ℚ) : Py ℚ := if x ≤ 0 then .error .valueError else .ok (m.log x)

/-- The constant `180 / Py_MATH_PI` by which `math.degrees` multiplies. -/
def perRadian : ℚ := fl (180 / piD)

/-- `math.degrees` -/
def degrees (x : ℚ) : ℚ := fl (x * perRadian)

/-- A `Mercator`: the attributes that proj.py:74-78 set and the methods use. -/
structure Mercator where
  lon0 : ℚ
  r : ℚ

/-- proj.py:69-78 `Mercator(origin, radius)`; the origin is given in degrees, its latitude is not used. -/
def Mercator.init (lon0 r : ℚ) : Mercator := ⟨radians lon0, r⟩

/-- proj.py:110-116 `Mercator.geo2rect`: the call ends with `res`. -/
def Mercator.Geo2rect (m : MercLib) (p : Mercator) (lon lat : ℚ) (res : Py (ℚ × ℚ)) : Prop :=
  if lat = -90 then res = .error .projectionError
  else ∃ v, CorangleEnds (fl (radians lon - p.lon0)) v ∧ res = (do
    let l ← m.pyLog (m.tan (fl (fl (piD / 4) + fl (radians lat / 2))))
    return (fl (p.r * v), fl (p.r * l)))

/-- proj.py:118-122 `Mercator.rect2geo`: the call ends with `res`. -/
def Mercator.Rect2geo (m : MercLib) (p : Mercator) (x y : ℚ) (res : Py (ℚ × ℚ)) : Prop :=
  if p.r = 0 then res = .error .zeroDivisionError
  else ∃ v, CorangleEnds (fl (fl (x / p.r) + p.lon0)) v ∧ res = .ok (degrees v, degrees (m.atan (m.sinh (fl (y / p.r)))))

end Flt
end Coral
