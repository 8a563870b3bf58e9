import Verif.Spec.PF
import Verif.Spec.Sphere

/-!
# Shapes cut into rings, and the radius of an ellipsoid
-/
namespace Coral

/-- Where each ring starts, if they are laid one after the other from `n` on. -/
def ringStarts {α : Type} : Nat → List (List α) → List Int
  | _, [] => []
  | n, r :: rs => (n : Int) :: ringStarts (n + r.length) rs

namespace Sph
open Real

/-- `(x, z)` is on the meridian ellipse (`x` from the axis, `z` from the equatorial plane), and the normal of the ellipse there has the direction of the latitude. -/
def AtLatitude (a b lat x z : ℝ) : Prop :=
  x ^ 2 / a ^ 2 + z ^ 2 / b ^ 2 = 1 ∧ x / a ^ 2 * sin (lat * π / 180) - z / b ^ 2 * cos (lat * π / 180) = 0

end Sph
end Coral
