import Verif.Model.FloatsM

/-!
# Arithmetic on floats: navigation on the sphere

As in `Model/FloatsT.lean`, every operation on floats is rounded (`fl`), numbers are not infinite, and the functions of the C library are parameters.
-/
namespace Coral
namespace Flt

/-- `asin` of the C library is correctly rounded. -/
def RoundsAsin (asin : ℚ → ℚ) : Prop := ∀ x : ℚ, -1 ≤ x → x ≤ 1 → Nearest (Real.arcsin x) (asin x)

/-- `math.asin` raises `ValueError` for numbers outside -1 to 1. -/
def pyAsin (asin : ℚ → ℚ) (x : ℚ) : Py ℚ := if x < -1 ∨ 1 < x then .error .valueError else .ok (asin x)

/-- coord.py:127-134 `bearing` -/
def bearing (m : Libm) (lon1 lat1 lon2 lat2 : ℚ) : ℚ :=
  let dLon := radians (fl (lon1 - lon2))
  let rlat1 := radians lat1
  let rlat2 := radians lat2
  let y := fl (m.sin dLon * m.cos rlat2)
  let x := fl (fl (m.cos rlat1 * m.sin rlat2) - fl (fl (m.sin rlat1 * m.cos rlat2) * m.cos dLon))
  degrees (m.atan2 y x)

/-- coord.py:159: the argument of `asin`. -/
def destSin (m : Libm) (lat bear d : ℚ) : ℚ :=
  fl (fl (m.sin (radians lat) * m.cos d) + fl (fl (m.cos (radians lat) * m.sin d) * m.cos (radians bear)))

/-- coord.py:160: `dlon`; `lat'` is the new latitude in radians. -/
def destLon (m : Libm) (lat bear d lat' : ℚ) : ℚ :=
  m.atan2 (fl (fl (m.sin (radians bear) * m.sin d) * m.cos (radians lat))) (fl (m.cos d - fl (m.sin (radians lat) * m.sin lat')))

/-- coord.py:148-160 `destination`: the new latitude and the difference of longitudes in radians. -/
def destAngles (m : Libm) (asin : ℚ → ℚ) (lat bear dist : ℚ) (R : Option ℚ) : Py (ℚ × ℚ) := do
  let r ← match R with
    | some r => .ok r
    | none => radiusat m lat
  let d ← div dist r
  let lat' ← pyAsin asin (destSin m lat bear d)
  return (lat', destLon m lat bear d lat')

/-- coord.py:136-163 `destination`: the call ends with `res`. -/
def Destination (m : Libm) (asin : ℚ → ℚ) (lon lat bear dist : ℚ) (R : Option ℚ) (res : Py (ℚ × ℚ)) : Prop :=
  match destAngles m asin lat bear dist R with
  | .error e => res = .error e
  | .ok (lat', dlon) => ∃ v, CorangleEnds (fl (radians lon - dlon)) v ∧ res = .ok (degrees v, degrees lat')

/-- coord.py:165-182 `midpoint` -/
def midpoint (m : Libm) (lon1 lat1 lon2 lat2 : ℚ) : Py (ℚ × ℚ) := do
  let dlon := radians (fl (lon2 - lon1))
  let coslat1 := m.cos (radians lat1)
  let bx := fl (m.cos (radians lat2) * m.cos dlon)
  let by' := fl (m.cos (radians lat2) * m.sin dlon)
  let lon3 := fl (radians lon1 + m.atan2 by' (fl (coslat1 + bx)))
  let sqcoslat1bx := fl (fl (coslat1 + bx) * fl (coslat1 + bx))
  let root ← m.pySqrt (fl (sqcoslat1bx + fl (by' * by')))
  let lat3 := m.atan2 (fl (m.sin (radians lat1) + m.sin (radians lat2))) root
  return (degrees lon3, degrees lat3)

end Flt
end Coral
