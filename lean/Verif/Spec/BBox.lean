import Verif.Model.BBox

/-! # Specification vocabulary for boxes: closed extent, well-formedness, least box. -/
namespace Coral.BBox
variable {K : Type} [LinearOrder K]

/-- The closed extent of a box. -/
def Covers (b : BBox K) (p : K × K) : Prop := b.x0 ≤ p.1 ∧ p.1 ≤ b.x1 ∧ b.y0 ≤ p.2 ∧ p.2 ≤ b.y1

/-- Corners in order (possibly degenerate). -/
def WF (b : BBox K) : Prop := b.x0 ≤ b.x1 ∧ b.y0 ≤ b.y1

/-- Positive width and height. -/
def Proper (b : BBox K) : Prop := b.x0 < b.x1 ∧ b.y0 < b.y1

/-- `b` covers all the points, and any box covering all of them covers all of `b`. -/
def IsLeast (b : BBox K) (ps : List (K × K)) : Prop :=
  (∀ p ∈ ps, b.Covers p) ∧ ∀ c : BBox K, (∀ p ∈ ps, c.Covers p) → ∀ q, b.Covers q → c.Covers q

/-- Each side of the box is touched by one of the points. -/
def Tight (b : BBox K) (ps : List (K × K)) : Prop :=
  (∃ p ∈ ps, p.1 = b.x0) ∧ (∃ p ∈ ps, p.1 = b.x1) ∧ (∃ p ∈ ps, p.2 = b.y0) ∧ (∃ p ∈ ps, p.2 = b.y1)

/-- The half-open point set of a box, as mathematics. -/
def Inside (b : BBox K) (p : K × K) : Prop := b.x0 ≤ p.1 ∧ p.1 < b.x1 ∧ b.y0 ≤ p.2 ∧ p.2 < b.y1

end Coral.BBox
