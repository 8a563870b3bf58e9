import Verif.Model.Shapefile

/-! # Model of opening a file in an `Editor` (`coral/shapefile.py`), the geometry -/
namespace Coral
namespace Shapefile

/-- shapefile.py:1071-1076 `Editor(name)` for a file that is there: the writer of the editor has the type of the file and the shapes that
`shapes()` gives. As a relation, since the loop of `shapes()` need not end for every file. -/
inductive Opened {D : Type} [Double D] (shp : List Byte) : Writer D → Prop
  | mk {l t m outs} : shpHeader shp = .ok (l, t, m) → Shapes D (decide ((0 : D) ∈ m)) shp 100 (.ok outs) →
      Opened shp { shapes := outs, shapeType := some t }

/-- shapefile.py:710-714 `bbox()`. -/
def Writer.bbox {D : Type} [Double D] (w : Writer D) : Py (List D) := bboxOf w.shapes

/-- shapefile.py:716-718 `zbox()`. -/
def Writer.zbox {D : Type} [Double D] (w : Writer D) : Py (List D) := zboxOf w.shapes

/-- shapefile.py:720-722 `mbox()`. -/
def Writer.mbox {D : Type} [Double D] (w : Writer D) : Py (List D) := mboxOf w.shapes

end Shapefile
end Coral
