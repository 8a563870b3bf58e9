import Verif.Spec.BBox

/-!
# Vocabulary for the properties of frames
-/
namespace Coral
namespace Frame

section
variable {K : Type} [LinearOrder K]

/-- The extent of the numbers `xs` takes up `t`: from the least of them on, up to (not including) the greatest one. -/
def InExtent (xs : List K) (t : K) : Prop := (∃ v ∈ xs, v ≤ t) ∧ ((∃ w ∈ xs, t < w) ∨ ∀ w ∈ xs, t ≤ w)

/-- The rectangle around the points `ps` and the box `b` have a point in common (upper and right borders do not count,
except that a set of points without extent counts as one point). -/
def Meets (b : BBox K) (ps : List (K × K)) : Prop :=
  ∃ x y, (b.x0 ≤ x ∧ x < b.x1 ∧ b.y0 ≤ y ∧ y < b.y1) ∧ InExtent (ps.map Prod.fst) x ∧ InExtent (ps.map Prod.snd) y

end
end Frame
end Coral
