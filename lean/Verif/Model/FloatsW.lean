import Verif.Model.FloatsM

/-!
# Arithmetic on floats: the Mercator projection for the ellipsoid

As in `Model/FloatsT.lean`, every operation on floats is rounded (`fl`), numbers are not infinite, and the functions of the C library are parameters. Only for
`math.exp` the largest float matters.
-/
namespace Coral
namespace Flt

/-- The functions of the C library that proj.py:132-164 calls through `math`, or by `**`. -/
structure EllLib extends Libm where
  tan : ℚ → ℚ
  log : ℚ → ℚ
  exp : ℚ → ℚ
  atan : ℚ → ℚ
  pow : ℚ → ℚ → ℚ

/-- The library is correctly rounded. -/
structure EllLib.Rounds (m : EllLib) : Prop where
  base : m.toLibm.Rounds
  tan : ∀ x : ℚ, Nearest (Real.tan x) (m.tan x)
  log : ∀ x : ℚ, 0 < x → Nearest (Real.log x) (m.log x)
  exp : ∀ x : ℚ, Nearest (Real.exp x) (m.exp x)
  atan : ∀ x : ℚ, Nearest (Real.arctan x) (m.atan x)
  pow : ∀ x y : ℚ, 0 < x → Nearest ((x : ℝ) ^ (y : ℝ)) (m.pow x y)

/-- `math.log` raises `ValueError` for numbers that are not positive. -/
def EllLib.pyLog (m : EllLib) (x : ℚ) : Py ℚ := if x ≤ 0 then .error .valueError else .ok (m.log x)

/-- `math.exp` raises `OverflowError` where the result is too large for a float. -/
def EllLib.pyExp (m : EllLib) (x : ℚ) : Py ℚ := if 2 ^ 1024 ≤ m.exp x then .error .overflowError else .ok (m.exp x)

/-- An `EMercator`: the attributes that proj.py:100-105 set and the methods use. -/
structure EMercator where
  lon0 : ℚ
  a : ℚ
  e : ℚ

/-- proj.py:95-105 `EMercator(origin, ellipsoid)` for an ellipsoid with the equatorial radius `a` and the eccentricity `e`; the origin is given in degrees, its
latitude is not used. -/
def EMercator.init (lon0 a e : ℚ) : EMercator := ⟨radians lon0, a, e⟩

/-- proj.py:137,139 and 151-152: the factor for the eccentricity; the quotient is positive for `0 ≤ e < 1`. -/
def EMercator.factor (m : EllLib) (e lat : ℚ) : Py ℚ := do
  let s := fl (e * m.sin lat)
  let q ← div (fl (1 - s)) (fl (1 + s))
  return m.pow q (fl (e / 2))

/-- proj.py:132-143 `EMercator.geo2rect`: the call ends with `res`. -/
def EMercator.Geo2rect (m : EllLib) (p : EMercator) (lon lat : ℚ) (res : Py (ℚ × ℚ)) : Prop :=
  if lat = -90 then res = .error .projectionError
  else ∃ v, CorangleEnds (fl (radians lon - p.lon0)) v ∧ res = (do
    let f ← EMercator.factor m p.e (radians lat)
    let l ← m.pyLog (fl (m.tan (fl (fl (piD / 4) + fl (radians lat / 2))) * f))
    return (fl (p.a * v), fl (p.a * l)))

/-- proj.py:151-153: the next latitude. -/
def EMercator.improve (m : EllLib) (e t l0 : ℚ) : Py ℚ := do
  let f ← EMercator.factor m e l0
  return fl (fl (piD / 2) - fl (2 * m.atan (fl (t * f))))

/-- proj.py:150-155: the loop, begun with `l0`, ends with `res`. -/
inductive EMercator.Loop (m : EllLib) (e t : ℚ) : ℚ → Py ℚ → Prop
  | raise {l0 x} : EMercator.improve m e t l0 = .error x → EMercator.Loop m e t l0 (.error x)
  | done {l0} : EMercator.improve m e t l0 = .ok l0 → EMercator.Loop m e t l0 (.ok l0)
  | again {l0 lat res} : EMercator.improve m e t l0 = .ok lat → lat ≠ l0 → EMercator.Loop m e t lat res → EMercator.Loop m e t l0 res

/-- proj.py:148: the latitude the loop begins with. -/
def EMercator.start (m : EllLib) (t : ℚ) : ℚ := fl (fl (piD / 2) - fl (2 * m.atan t))

/-- proj.py:145-157 `EMercator.rect2geo`: the call ends with `res`. -/
def EMercator.Rect2geo (m : EllLib) (p : EMercator) (x y : ℚ) (res : Py (ℚ × ℚ)) : Prop :=
  if p.a = 0 then res = .error .zeroDivisionError
  else ∃ v, CorangleEnds (fl (fl (x / p.a) + p.lon0)) v ∧ match m.pyExp (fl (-y / p.a)) with
    | .error er => res = .error er
    | .ok t => ∃ lat, EMercator.Loop m p.e t (EMercator.start m t) lat ∧ res = (do return (degrees v, degrees (← lat)))

/-- proj.py:159-164 `EMercator.scale` -/
def EMercator.scale (m : EllLib) (p : EMercator) (_lon lat : ℚ) : Py ℚ := do
  let sinlat := m.sin (radians lat)
  let s ← m.pySqrt (fl (1 - fl (fl (fl (p.e * p.e) * sinlat) * sinlat)))
  div s (m.cos (radians lat))

/-- proj.py:124-127 `Mercator.scale` -/
def Mercator.scale (m : Libm) (_lon lat : ℚ) : Py ℚ := div 1 (m.cos (radians lat))

end Flt
end Coral
