import Verif.Model.FloatsC
import Verif.Model.FloatsE
import Verif.PyReal

/-!
# Arithmetic on floats: trigonometry on the sphere

As in `Model/Floats.lean`, every operation on floats is rounded (`fl`), and numbers are not infinite. The functions of the C library are
parameters. The ideal library is meant by `Libm.Rounds`: it returns floats that no other float beats in closeness to the exact value.
-/
namespace Coral
namespace Flt

/-- `r` is a float, and no float is closer to the number `y`. -/
def Nearest (y : ℝ) (r : ℚ) : Prop := IsDouble r ∧ ∀ d : ℚ, IsDouble d → |(r : ℝ) - y| ≤ |(d : ℝ) - y|

/-- The functions of the C library that coord.py:98-125 and proj.py:300-323 call through `math`. -/
structure Libm where
  sin : ℚ → ℚ
  cos : ℚ → ℚ
  acos : ℚ → ℚ
  atan2 : ℚ → ℚ → ℚ
  sqrt : ℚ → ℚ

/-- The library is correctly rounded. -/
structure Libm.Rounds (m : Libm) : Prop where
  sin : ∀ x : ℚ, Nearest (Real.sin x) (m.sin x)
  cos : ∀ x : ℚ, Nearest (Real.cos x) (m.cos x)
  acos : ∀ x : ℚ, -1 ≤ x → x ≤ 1 → Nearest (Real.arccos x) (m.acos x)
  atan2 : ∀ y x : ℚ, Nearest (Coral.atan2 y x) (m.atan2 y x)
  sqrt : RoundsRoots m.sqrt

/-- `math.sqrt` raises `ValueError` for negative numbers. -/
def Libm.pySqrt (m : Libm) (x : ℚ) : Py ℚ := if x < 0 then .error .valueError else .ok (m.sqrt x)

/-- `math.acos` raises `ValueError` for numbers outside -1 to 1. -/
def Libm.pyAcos (m : Libm) (x : ℚ) : Py ℚ := if x < -1 ∨ 1 < x then .error .valueError else .ok (m.acos x)

/-- The constant `Py_MATH_PI / 180` by which `math.radians` multiplies. -/
def degree : ℚ := fl (piD / 180)

/-- `math.radians` -/
def radians (x : ℚ) : ℚ := fl (x * degree)

/-- proj.py:48: `f` of the ellipsoid WGS84. -/
def wgsF : ℚ := fl (1 / fl (298257223563 / 1000000000))

/-- proj.py:47: `a` of the ellipsoid WGS84. -/
def wgsA : ℚ := 6378137

/-- proj.py:51: `b` of the ellipsoid WGS84. -/
def wgsB : ℚ := fl (wgsA * fl (1 - wgsF))

/-- coord.py:98-110 `radiusat` with the default ellipsoid. -/
def radiusat (m : Libm) (lat : ℚ) : Py ℚ := do
  let radlat := radians lat
  let coslat := m.cos radlat
  let sinlat := m.sin radlat
  let acoslatsqr := fl (fl (fl (wgsA * wgsA) * coslat) * coslat)
  let bsinlatsqr := fl (fl (fl (wgsB * wgsB) * sinlat) * sinlat)
  let num := fl (fl (fl (wgsA * wgsA) * acoslatsqr) + fl (fl (wgsB * wgsB) * bsinlatsqr))
  let den := fl (acoslatsqr + bsinlatsqr)
  let q ← div num den
  m.pySqrt q

/-- coord.py:116-122: the number `a`. -/
def hav (m : Libm) (lon1 lat1 lon2 lat2 : ℚ) : ℚ :=
  let dLat := radians (fl (lat2 - lat1))
  let dLon := radians (fl (lon2 - lon1))
  let rlat1 := radians lat1
  let rlat2 := radians lat2
  let a1 := fl (m.sin (fl (dLat / 2)) * m.sin (fl (dLat / 2)))
  let a2 := fl (fl (fl (m.sin (fl (dLon / 2)) * m.sin (fl (dLon / 2))) * m.cos rlat1) * m.cos rlat2)
  fl (a1 + a2)

/-- coord.py:112-125 `haversine` -/
def haversine (m : Libm) (lon1 lat1 lon2 lat2 : ℚ) (R : Option ℚ) : Py ℚ := do
  let r ← match R with
    | some r => .ok r
    | none => radiusat m (fl (fl (lat1 + lat2) / 2))
  let a := hav m lon1 lat1 lon2 lat2
  let s ← m.pySqrt a
  let t ← m.pySqrt (fl (1 - a))
  let c := fl (2 * m.atan2 s t)
  return fl (r * c)

/-- An `AzimuthalEquidistant`: the attributes that proj.py:74-78 and 305-306 set; `lon0` and `lat0` are radians. -/
structure Equidistant where
  lon0 : ℚ
  lat0 : ℚ
  r : ℚ
  coslat0 : ℚ
  sinlat0 : ℚ

/-- proj.py:69-78 and 303-306 `AzimuthalEquidistant(origin, radius)`; the origin is given in degrees. -/
def Equidistant.init (m : Libm) (lon0 lat0 r : ℚ) : Equidistant :=
  ⟨radians lon0, radians lat0, r, m.cos (radians lat0), m.sin (radians lat0)⟩

/-- proj.py:313-317: the number `cosc` for a position in radians. -/
def Equidistant.cosc (m : Libm) (p : Equidistant) (lon lat : ℚ) : ℚ :=
  fl (fl (p.sinlat0 * m.sin lat) + fl (fl (p.coslat0 * m.cos lat) * m.cos (fl (lon - p.lon0))))

/-- proj.py:308-323 `AzimuthalEquidistant.geo2rect` -/
def Equidistant.geo2rect (m : Libm) (p : Equidistant) (lon lat : ℚ) : Py (ℚ × ℚ) :=
  if radians lon = p.lon0 ∧ radians lat = p.lat0 then .ok (0, 0)
  else do
    let coslat := m.cos (radians lat)
    let sinlat := m.sin (radians lat)
    let coslon := m.cos (fl (radians lon - p.lon0))
    let sinlon := m.sin (fl (radians lon - p.lon0))
    let c ← m.pyAcos (p.cosc m (radians lon) (radians lat))
    let k ← div c (m.sin c)
    let xy := fl (p.r * k)
    return (fl (xy * fl (coslat * sinlon)), fl (xy * fl (fl (p.coslat0 * sinlat) - fl (fl (p.sinlat0 * coslat) * coslon))))

end Flt
end Coral
