import Verif.Model.FloatsN
import Verif.Model.Proj

/-!
# Arithmetic on floats: the Eckert IV projection

As in `Model/FloatsT.lean`, every operation on floats is rounded (`fl`), numbers are not infinite, and the functions of the C library are parameters.
-/
namespace Coral
namespace Flt
namespace Eckert

/-- proj.py:225 `CX` (the root is not zero) -/
def cx (m : Libm) : ℚ := fl (2 / m.sqrt (fl (fl (4 * piD) + fl (piD * piD))))

/-- proj.py:226 `CY` -/
def cy (m : Libm) : ℚ := fl (2 * m.sqrt (fl (piD / fl (4 + piD))))

/-- proj.py:227 `C` -/
def c : ℚ := fl (2 + fl (piD / 2))

/-- proj.py:234: the literal `1e-6` -/
def tol : ℚ := fl (1 / 10 ^ 6)

/-- The variables of the loop. -/
structure State where
  theta : ℚ
  costheta : ℚ
  sintheta : ℚ
  delta : ℚ

/-- proj.py:235-240: one round. -/
def body (m : Libm) (sinlat : ℚ) (s : State) : Py State := do
  let costheta := m.cos s.theta
  let sintheta := m.sin s.theta
  let num := fl (fl (fl (s.theta + fl (sintheta * costheta)) + fl (2 * sintheta)) - fl (c * sinlat))
  let den := fl (fl (2 * costheta) * fl (1 + costheta))
  let delta ← div (-num) den
  return { theta := fl (s.theta + delta), costheta := costheta, sintheta := sintheta, delta := delta }

/-- proj.py:231-240: the loop (the first round is always entered, the cosine and sine are not used before). -/
def Loop (m : Libm) (lat : ℚ) : Py State → Prop :=
  Proj.PyWhile (fun s => |s.delta| > tol) (body m (m.sin lat)) { theta := fl (lat / 2), costheta := 0, sintheta := 0, delta := 1 }

/-- proj.py:229-243 `EckertIV.geo2rect`, for the central meridian `lon0` (in radians) and the radius `r`: the call ends with this. -/
inductive Geo2rect (m : Libm) (lon0 r lon lat : ℚ) : Py (ℚ × ℚ) → Prop
  | ok {s v} : Loop m (radians lat) (.ok s) → CorangleEnds (fl (radians lon - lon0)) v →
      Geo2rect m lon0 r lon lat (.ok (fl (fl (fl (cx m * r) * v) * fl (1 + s.costheta)), fl (fl (cy m * r) * s.sintheta)))
  | raise {e} : Loop m (radians lat) (.error e) → Geo2rect m lon0 r lon lat (.error e)

/-- proj.py:245-252 `EckertIV.rect2geo` -/
def rect2geo (m : Libm) (asin : ℚ → ℚ) (lon0 r x y : ℚ) : Py (ℚ × ℚ) := do
  let q ← div y (fl (cy m * r))
  let theta ← pyAsin asin q
  let costheta := m.cos theta
  let sintheta := m.sin theta
  let dlon ← div x (fl (fl (cx m * r) * fl (1 + costheta)))
  let s ← div (fl (fl (theta + fl (sintheta * costheta)) + fl (2 * sintheta))) c
  let lat ← pyAsin asin s
  return (degrees (fl (lon0 + dlon)), degrees lat)

end Eckert
end Flt
end Coral
