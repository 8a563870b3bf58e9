import Verif.Spec.Shapefile

/-!
# What files with elevations and measures have to hold
-/
namespace Coral
namespace Shapefile

/-- Lines, polygons and multipatches with elevations. -/
def Elevated (t : Int) : Prop := t = 13 ∨ t = 15 ∨ t = 31

/-- `out` is the line, polygon or multipatch `s` as a shape of type `t` read from a file, elevations included. -/
structure SameZ {D : Type} (t : Int) (s out : Shape D) : Prop where
  type : out.shapeType = some t
  points : out.points = s.points.map (List.take 2)
  parts : out.parts.getD [] = s.parts.getD []
  elevations : out.z = s.z
  partTypes : t = 31 → out.partTypes = s.partTypes

/-- A shape with an elevation for each of its points and, in a multipatch file, a part type for each of its parts. -/
structure Complete {D : Type} (t : Int) (s : Shape D) : Prop where
  elevations : ∃ zs, s.z = some zs ∧ zs.length = s.points.length
  types : t = 31 → s.shapeType = some 31 ∧ ∀ ps pt, s.parts = some ps → s.partTypes = some pt → pt.length = ps.length

/-- The elevation of a single point: that of the attribute, or else the third coordinate; 0 if there is none. -/
def elevation {D : Type} [Zero D] (s : Shape D) : D :=
  match s.z with
  | some l => l.headD 0
  | none => ((s.points.headD [])[2]?).getD 0

/-- The measure of a single point: that of the attribute, or else the fourth coordinate; 0 if there is none. -/
def measure {D : Type} [Zero D] (s : Shape D) : Option D :=
  match s.m with
  | some l => l.headD (some 0)
  | none => some (((s.points.headD [])[3]?).getD 0)

end Shapefile
end Coral
