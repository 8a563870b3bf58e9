import Mathlib.Analysis.InnerProductSpace.PiL2
import Mathlib.Geometry.Euclidean.Angle.Unoriented.Basic

/-!
# Positions on the sphere

A longitude and a latitude in degrees name a point of the unit sphere.
-/
namespace Coral
namespace Spec

open Real

/-- The point of the unit sphere with this longitude and latitude (in degrees). -/
noncomputable def pos (lon lat : ℝ) : EuclideanSpace ℝ (Fin 3) :=
  !₂[cos (lat * π / 180) * cos (lon * π / 180), cos (lat * π / 180) * sin (lon * π / 180), sin (lat * π / 180)]

/-- The angle between two positions, seen from the centre. -/
noncomputable def arc (lon1 lat1 lon2 lat2 : ℝ) : ℝ := InnerProductGeometry.angle (pos lon1 lat1) (pos lon2 lat2)

end Spec
end Coral
