import Verif.Model.Proj

/-!
# Model of the spherical geometry in `coral/coord.py`

Over the real numbers, see `Verif/PyReal.lean`.
-/
namespace Coral
namespace Sph

open Real Proj

noncomputable section

/-- coord.py:98-110 `radiusat` -/
def radiusat (lat : ℝ) (ellipsoid : Option Ellipsoid) : Py ℝ := do
  let ell := ellipsoid.getD wgs84
  let coslat := cos (rad lat)
  let sinlat := sin (rad lat)
  let acoslatsqr := ell.a * ell.a * coslat * coslat
  let bsinlatsqr := ell.b * ell.b * sinlat * sinlat
  let num := ell.a * ell.a * acoslatsqr + ell.b * ell.b * bsinlatsqr
  let den := acoslatsqr + bsinlatsqr
  let q ← rdiv num den
  rsqrt q

/-- coord.py:114-115, 150-151: the optional radius `R`. -/
def radius (R : Option ℝ) (lat : ℝ) : Py ℝ :=
  match R with
  | some R => .ok R
  | none => radiusat lat none

/-- coord.py:116-122: the number `a`. -/
def hav (lon1 lat1 lon2 lat2 : ℝ) : ℝ :=
  sin (rad (lat2 - lat1) / 2) * sin (rad (lat2 - lat1) / 2) +
    sin (rad (lon2 - lon1) / 2) * sin (rad (lon2 - lon1) / 2) * cos (rad lat1) * cos (rad lat2)

/-- coord.py:112-125 `haversine` -/
def haversine (lon1 lat1 lon2 lat2 : ℝ) (R : Option ℝ) : Py ℝ := do
  let r ← radius R ((lat1 + lat2) / 2)
  let s ← rsqrt (hav lon1 lat1 lon2 lat2)
  let t ← rsqrt (1 - hav lon1 lat1 lon2 lat2)
  return r * (2 * atan2 s t)

/-- coord.py:127-134 `bearing` -/
def bearing (lon1 lat1 lon2 lat2 : ℝ) : ℝ :=
  let dLon := rad (lon1 - lon2)
  let y := sin dLon * cos (rad lat2)
  let x := cos (rad lat1) * sin (rad lat2) - sin (rad lat1) * cos (rad lat2) * cos dLon
  deg (atan2 y x)

/-- coord.py:136-163 `destination` -/
def destination (lon lat bear dist : ℝ) (R : Option ℝ) : Py (ℝ × ℝ) := do
  let tc := rad bear
  let r ← radius R lat
  let d ← rdiv dist r
  let lat' ← rasin (sin (rad lat) * cos d + cos (rad lat) * sin d * cos tc)
  let dlon := atan2 (sin tc * sin d * cos (rad lat)) (cos d - sin (rad lat) * sin lat')
  return (deg (corangle (rad lon - dlon)), deg lat')

/-- coord.py:165-182 `midpoint`; the square root is of a sum of squares and does not raise. -/
def midpoint (lon1 lat1 lon2 lat2 : ℝ) : ℝ × ℝ :=
  let dlon := rad (lon2 - lon1)
  let bx := cos (rad lat2) * cos dlon
  let by' := cos (rad lat2) * sin dlon
  let lon3 := rad lon1 + atan2 by' (cos (rad lat1) + bx)
  let sq := (cos (rad lat1) + bx) * (cos (rad lat1) + bx)
  let lat3 := atan2 (sin (rad lat1) + sin (rad lat2)) (√(sq + by' * by'))
  (deg lon3, deg lat3)

end

end Sph
end Coral
