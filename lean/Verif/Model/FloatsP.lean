import Verif.Model.FloatsT

/-!
# Arithmetic on floats: the stereographic and the azimuthal equal-area projections

As in `Model/FloatsT.lean`, every operation on floats is rounded (`fl`), numbers are not infinite, and the functions of the C library are
parameters. `Stereographic`, `AzimuthalEquidistant` and `AzimuthalEqualArea` set the same attributes in the same way (proj.py:260-263,
303-306 and 351-354), so one structure and one `init` serve for the three.
-/
namespace Coral
namespace Flt

/-- proj.py:271 and 362: the sum that divides 2, for a position in radians. -/
def Equidistant.denom (m : Libm) (p : Equidistant) (lon lat : ℚ) : ℚ :=
  fl (fl (1 + fl (p.sinlat0 * m.sin lat)) + fl (fl (p.coslat0 * m.cos lat) * m.cos (fl (lon - p.lon0))))

/-- proj.py:272-275 and 363-366: the point of the plane at the scale `k`, for a position in radians. -/
def Equidistant.plane (m : Libm) (p : Equidistant) (k lon lat : ℚ) : ℚ × ℚ :=
  let coslat := m.cos lat
  let sinlat := m.sin lat
  let coslon := m.cos (fl (lon - p.lon0))
  let sinlon := m.sin (fl (lon - p.lon0))
  let xy := fl (p.r * k)
  (fl (xy * fl (coslat * sinlon)), fl (xy * fl (fl (p.coslat0 * sinlat) - fl (fl (p.sinlat0 * coslat) * coslon))))

/-- proj.py:265-275 `Stereographic.geo2rect` -/
def stereographic (m : Libm) (p : Equidistant) (lon lat : ℚ) : Py (ℚ × ℚ) := do
  let k ← div 2 (p.denom m (radians lon) (radians lat))
  return p.plane m k (radians lon) (radians lat)

/-- proj.py:356-366 `AzimuthalEqualArea.geo2rect` -/
def equalArea (m : Libm) (p : Equidistant) (lon lat : ℚ) : Py (ℚ × ℚ) := do
  let q ← div 2 (p.denom m (radians lon) (radians lat))
  let k ← m.pySqrt q
  return p.plane m k (radians lon) (radians lat)

end Flt
end Coral
