import Mathlib.Data.Real.Basic
import Mathlib.Algebra.BigOperators.Group.List.Basic

/-!
# The centroid of plane polygons
-/
namespace Coral
namespace Geoc

/-- The signed area of a triangle. -/
noncomputable def triArea (o a b : ℝ × ℝ) : ℝ := ((a.1 - o.1) * (b.2 - o.2) - (b.1 - o.1) * (a.2 - o.2)) / 2

/-- The sides of a polygon: each vertex and the one after it, the last and the first. -/
def sides (xys : List (ℝ × ℝ)) : List ((ℝ × ℝ) × (ℝ × ℝ)) := xys.zip (xys.rotate 1)

/-- The signed area of a set of polygons, as the triangles over their sides from a point `o`. -/
noncomputable def fanArea (o : ℝ × ℝ) (polys : List (List (ℝ × ℝ))) : ℝ :=
  ((polys.flatMap sides).map fun s => triArea o s.1 s.2).sum

/-- `c` is the centroid of the polygons: whatever point `o` the polygons are divided into triangles from, it is the mean of the centroids of the triangles, weighted with
their signed areas. (Polygons of the other orientation count as holes.) -/
def IsCentroid (polys : List (List (ℝ × ℝ))) (c : ℝ × ℝ) : Prop :=
  ∀ o, fanArea o polys ≠ 0 ∧
    c.1 * fanArea o polys = ((polys.flatMap sides).map fun s => triArea o s.1 s.2 * ((o.1 + s.1.1 + s.2.1) / 3)).sum ∧
    c.2 * fanArea o polys = ((polys.flatMap sides).map fun s => triArea o s.1 s.2 * ((o.2 + s.1.2 + s.2.2) / 3)).sum

end Geoc
end Coral
