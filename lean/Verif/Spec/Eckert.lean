import Mathlib.Analysis.SpecialFunctions.Trigonometric.Basic

/-!
# The Eckert IV projection

The formulas of the literature; angles in radians.
-/
namespace Coral
namespace Spec

open Real

/-- `(x, y)` is the image of the latitude `φ`, at `dlon` from the central meridian. -/
def EckertImage (r dlon φ x y : ℝ) : Prop :=
  ∃ θ, -(π / 2) ≤ θ ∧ θ ≤ π / 2 ∧ θ + sin θ * cos θ + 2 * sin θ = (2 + π / 2) * sin φ ∧
    x = 2 / √(4 * π + π * π) * r * dlon * (1 + cos θ) ∧ y = 2 * √(π / (4 + π)) * r * sin θ

end Spec
end Coral
