import Verif.Model.Shapefile

/-!
# What the geometry files have to hold
-/
namespace Coral
namespace Shapefile

/-- The x and y of the points a record of this type can hold: the first one only for single point types. -/
def planar {D : Type} (t : Int) (points : List (List D)) : List (List D) :=
  (if t = 1 ∨ t = 11 ∨ t = 21 then points.take 1 else points).map (List.take 2)

/-- The types the round trip is about: (multi)points, lines and polygons, plain or with measures, and points with elevation. -/
def Plain (t : Int) : Prop := t = 1 ∨ t = 3 ∨ t = 5 ∨ t = 8 ∨ t = 11 ∨ t = 21 ∨ t = 23 ∨ t = 25

/-- Lines and polygons, the types with parts. -/
def Parted (t : Int) : Prop := t = 3 ∨ t = 5 ∨ t = 23 ∨ t = 25

/-- `out` is `s` as a shape of type `t` read from a file. -/
structure Same {D : Type} (t : Int) (s out : Shape D) : Prop where
  type : out.shapeType = some t
  points : out.points = planar t s.points
  parts : Parted t → out.parts.getD [] = s.parts.getD []

/-- A shape that a file of type `t` can hold. -/
def Fine {D : Type} (t : Int) (s : Shape D) : Prop :=
  (t = 11 ∨ t = 21 → s.z = none ∧ s.m = none) ∧ (s.points ≠ [] ∧ ∀ p ∈ s.points, 4 ≤ p.length) ∧
  (Parted t → ∃ ps, s.parts = some ps ∧ ∀ v ∈ ps, 0 ≤ v ∧ v ≤ s.points.length)

/-- How many bytes its record takes, header included. -/
def recordSize {D : Type} (t : Int) (s : Shape D) : Nat :=
  if t = 1 then 28 else if t = 21 then 36 else if t = 11 then 44 else
  if t = 8 then 48 + 16 * s.points.length else
  if t = 3 ∨ t = 5 then 52 + 4 * (s.parts.getD []).length + 16 * s.points.length else
  if t = 23 ∨ t = 25 then 68 + 4 * (s.parts.getD []).length + 24 * s.points.length else 12

/-- The type a file gets: the writer's, or else that of the first shape. -/
def fileType {D : Type} (w : Writer D) : Option Int :=
  if w.shapeType = none ∨ w.shapeType = some 0 then w.shapes.head?.bind Shape.shapeType else w.shapeType

/-- The measures of the points of a shape. -/
def measures {D : Type} (s : Shape D) : List D := s.points.filterMap (fun p => p[3]?)

/-- The parts of a list of points, given where each starts. -/
def cut {α : Type} : List Int → List α → List (List α)
  | [], _ => []
  | [a], ps => [ps.drop a.toNat]
  | a :: b :: l, ps => (ps.take b.toNat).drop a.toNat :: cut (b :: l) ps

/-- A ring that comes from `part`: it ends where it starts, and it is `part` if that was so already. -/
def Closes {α : Type} (part ring : List α) : Prop :=
  ring ≠ [] ∧ ring.head? = ring.getLast? ∧
    ((part.head? = part.getLast? ∧ ring = part) ∨ (part.head? ≠ part.getLast? ∧ ∃ a, part.head? = some a ∧ ring = part ++ [a]))

/-- A point with four coordinates, zeros for the missing ones. -/
def four {D : Type} [Zero D] (p : List D) : List D := if p.length < 4 then (p ++ [0, 0, 0, 0]).take 4 else p

/-- The index leads to the shapes that reading from front to back gives. -/
def IndexRight (D : Type) [Double D] (noM : Bool) (shp shx : List Byte) : Prop :=
  ∀ l : List (Shape D), Shapes D noM shp 100 (.ok l) → ∃ offs, shxOffsets shx = .ok offs ∧ offs.length = l.length ∧
    ∀ (i : Nat) (o : Int), offs[i]? = some o → 0 < o ∧ ∃ (s : Shape D) (next : Nat), l[i]? = some s ∧ shapeAt noM shp o.toNat = .ok (s, next)

/-- Saving one or more times, with the files of the last time. -/
inductive Saves {D : Type} [Double D] : Writer D → Writer D → List Byte → List Byte → Prop
  | once {w w' shp shx} : w.save = .ok (w', shp, shx) → Saves w w' shp shx
  | again {w w1 w2 shp0 shx0 shp shx} : Saves w w1 shp0 shx0 → w1.save = .ok (w2, shp, shx) → Saves w w2 shp shx

/-- What can happen to a `Reader` between two uses. -/
inductive Uses {D : Type} [Double D] : Reader D → Reader D → Prop
  | refl {r} : Uses r r
  | shape {r r1 r2 i s} : Uses r r1 → Reader.Shape r1 i (.ok (r2, s)) → Uses r r2
  | shapes {r r1} (pos : Nat) : Uses r r1 → Uses r { r1 with pos := pos }

end Shapefile
end Coral
