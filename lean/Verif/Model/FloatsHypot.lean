import Verif.Model.FloatsT
import Verif.Model.BBox

/-!
# The diagonal of a box on floats

As in `Model/Floats.lean`, every operation on floats is rounded (`fl`). `math.hypot` is a parameter.
-/
namespace Coral
namespace Flt

/-- The ideal library: the result of `math.hypot` is the exact one, rounded to a float that no other float beats in closeness; how ties are broken does
not matter. -/
def RoundsHypot (hypot : ℚ → ℚ → ℚ) : Prop :=
  ∃ rnd : ℝ → ℚ, (∀ y, Nearest y (rnd y)) ∧ ∀ a b : ℚ, hypot a b = rnd (√((a : ℝ) ^ 2 + (b : ℝ) ^ 2))

/-- bbox.py:132-134 `BBox.hypot`. -/
def boxHypot (hypot : ℚ → ℚ → ℚ) (b : BBox ℚ) : ℚ := hypot (fl (b.x1 - b.x0)) (fl (b.y1 - b.y0))

end Flt
end Coral
