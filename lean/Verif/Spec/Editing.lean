import Verif.Model.Editing

/-! # Extremes of coordinates -/
namespace Coral
namespace Shapefile

/-- The smallest and the largest of some numbers. -/
structure Extremes {D : Type} [LinearOrder D] (l : List D) (lo hi : D) : Prop where
  lo_mem : lo ∈ l
  hi_mem : hi ∈ l
  lo_le : ∀ a ∈ l, lo ≤ a
  le_hi : ∀ a ∈ l, a ≤ hi

/-- All coordinates of one kind (0 is x, 1 is y, 2 the elevation, 3 the measure) of some shapes. -/
def coords {D : Type} (i : Nat) (ss : List (Shape D)) : List D := ss.flatMap (fun s => s.points.filterMap (fun p => p[i]?))

/-- All points of some shapes have at least so many coordinates. -/
def Have {D : Type} (n : Nat) (ss : List (Shape D)) : Prop := ∀ s ∈ ss, ∀ p ∈ s.points, n ≤ p.length

end Shapefile
end Coral
