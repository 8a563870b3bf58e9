import Verif.Py
import Mathlib.Analysis.Calculus.Deriv.Basic
import Mathlib.Analysis.SpecialFunctions.Trigonometric.Basic

/-!
# Local scale of a map of the sphere

`g lon lat` is a point of the plane; longitude and latitude are in degrees.
-/
namespace Coral
namespace Spec

open Real Topology

/-- Near this position `g` has values, with these partial derivatives of `x` and `y` by longitude and latitude. -/
def HasPartials (g : ℝ → ℝ → Py (ℝ × ℝ)) (lon lat xlon ylon xlat ylat : ℝ) : Prop :=
  (∃ X Y : ℝ → ℝ, (∀ᶠ l in 𝓝 lon, g l lat = .ok (X l, Y l)) ∧ HasDerivAt X xlon lon ∧ HasDerivAt Y ylon lon) ∧
    ∃ X Y : ℝ → ℝ, (∀ᶠ l in 𝓝 lat, g lon l = .ok (X l, Y l)) ∧ HasDerivAt X xlat lat ∧ HasDerivAt Y ylat lat

/-- The map stretches small lengths to the north by `h` and small lengths to the east by `k`, keeps these directions perpendicular, and does not
mirror. `M` and `N` are the radii of curvature of the Earth along the meridian and across it (both its radius, for a sphere); a degree of
latitude has length `M * π / 180` and a degree of longitude `N * cos lat * π / 180`. -/
def LocalScale (g : ℝ → ℝ → Py (ℝ × ℝ)) (M N lon lat h k : ℝ) : Prop :=
  ∃ xlon ylon xlat ylat, HasPartials g lon lat xlon ylon xlat ylat ∧
    √(xlat ^ 2 + ylat ^ 2) = h * (M * π / 180) ∧
    √(xlon ^ 2 + ylon ^ 2) = k * (N * cos (lat * π / 180) * π / 180) ∧
    xlon * xlat + ylon * ylat = 0 ∧ 0 < xlon * ylat - ylon * xlat

/-- The map multiplies small areas by `m`. -/
def AreaScale (g : ℝ → ℝ → Py (ℝ × ℝ)) (R lon lat m : ℝ) : Prop :=
  ∃ xlon ylon xlat ylat, HasPartials g lon lat xlon ylon xlat ylat ∧
    xlon * ylat - ylon * xlat = m * ((R * π / 180) * (R * cos (lat * π / 180) * π / 180))

end Spec
end Coral
