import Verif.Model.Shapefile

/-! # Model of the addresses in `Editor` (`coral/shapefile.py`)

Numbers that are not given are `none`; they count as false, and so does 0. A `_Shape` cannot be indexed, which raises `TypeError`. -/
namespace Coral
namespace Shapefile

section
variable {D R : Type} [Double D]

/-- `if n:` -/
def given (n : Option Int) : Bool := decide (truthy n)

/-- `self._shapes[i]` followed by an index on the shape, to get or to delete. -/
def indexShape {α : Type} (shapes : List (Shape D)) (i : Int) : Py α := do
  let _ ← pyIndex shapes i
  .error .typeError

/-- shapefile.py:1099-1105: `for s in self._shapes` while shapes are deleted from the list; `k` counts the rounds, of which there are at most
`fuel` more. -/
def deletePoint (point : Int) : Nat → Nat → List (Shape D) → Py (List (Shape D))
  | 0, _, shapes => .ok shapes
  | fuel + 1, k, shapes =>
    match shapes[k]? with
    | none => .ok shapes
    | some s =>
      if s.shapeType = some 1 then do
        let shapes ← delItem shapes point
        deletePoint point fuel (k + 1) shapes
      else
        match s.parts with
        | none => .error .attributeError
        | some (_ :: _) => .error .typeError
        | some [] => deletePoint point fuel (k + 1) shapes

/-- shapefile.py:1107-1112: `for s in self._shapes: del s[part]` -/
def deletePart (shapes : List (Shape D)) : Py (List (Shape D)) :=
  match shapes with
  | [] => .ok []
  | _ :: _ => .error .typeError

/-- shapefile.py:1085-1112 `delete(shape, part, point)`: the shapes afterwards. -/
def deleteFrom (shapes : List (Shape D)) (shape part point : Option Int) : Py (List (Shape D)) :=
  match given shape, given part, given point with
  | true, true, _ => indexShape shapes (shape.getD 0)
  | true, false, false => delItem shapes (shape.getD 0)
  | true, false, true => .ok shapes
  | false, false, true => deletePoint (point.getD 0) shapes.length 0 shapes
  | false, true, _ => deletePart shapes
  | false, false, false => .ok shapes

/-- shapefile.py:1085-1112 -/
def Editor.deleteAt (e : Editor D R) (shape part point : Option Int) : Py (Editor D R) := do
  return { e with writer := { e.writer with shapes := ← deleteFrom e.writer.shapes shape part point } }

/-- shapefile.py:1119-1151: the part of `point` before `addr`, for a shape that is there (or not given): nothing is changed. What is appended for
a number that is out of range is not modelled. -/
def locate (shapes : List (Shape D)) (shape part : Option Int) : Py Unit :=
  if given shape && given part then indexShape shapes (shape.getD 0) else .ok ()

/-- shapefile.py:1114-1159 `point(x, y, z, m, shape, part, point)` without `addr`, for a shape that is there (or not given). `point` makes no
difference. -/
def Editor.pointAt (e : Editor D R) (x y z m : D) (shape part : Option Int) : Py (Editor D R) := do
  locate e.writer.shapes shape part
  e.point x y z m

/-- shapefile.py:1153-1155, 1158-1159 `point(x, y, z, m, addr=(shape, part, point))`. -/
def Editor.pointAddr (e : Editor D R) (shape : Int) : Py (Editor D R) := do
  indexShape e.writer.shapes shape

end

end Shapefile
end Coral
