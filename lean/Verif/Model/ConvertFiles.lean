import Verif.Model.Convert
import Verif.Model.Dbf
import Verif.Model.Shapefile

/-!
# Model of `sf2pf`, `coral/pf.py`, from the files of the shapefile on
-/
namespace Coral

section
open Shapefile (Double Shape)
variable {D : Type} [Double D] {K : Type} {F : Type}

/-- pf.py:167: `for j, (lon, lat) in enumerate(polygon)`: a point of a shape has two numbers; `val` is the value of a double. -/
def lonLat (val : D → K) : List D → Py (K × K)
  | [x, y] => .ok (val x, val y)
  | _ => .error .valueError

/-- pf.py:143-146: what is used of a shape record. All points are unpacked first here; the source does it in `write`, after `getname`. -/
def shapeRecordOf (val : D → K) (sr : Shape D × List (Dbf.Value F)) : Py ((List (K × K) × Option (List Int)) × List (Dbf.Value F)) := do
  let ps ← sr.1.points.mapM (lonLat val)
  return ((ps, sr.1.parts), sr.2)

variable [Field K] [LinearOrder K] [FloorRing K]

/-- pf.py:140-149: `sf2pf` reads `shp` and `dbf` (and perhaps a `.shx`, which `shapeRecords` does not look at) and writes `file`. -/
def Converts (val : D → K) (pyFloat : List Byte → Py F) (getname : List (Dbf.Value F) → Py (List Nat)) (size : Nat)
    (shp dbf : List Byte) (shx : Option (List Byte)) (file : List Byte) : Prop :=
  ∃ (dr : Dbf.Reader) (sr : Shapefile.Reader D) (shapes : List (Shape D)) (l : List (Shape D × List (Dbf.Value F))) (l' : List ((List (K × K) × Option (List Int)) × List (Dbf.Value F))),
    Dbf.Reader.new dbf = .ok dr ∧ Shapefile.Reader.new shp shx (some dr.numRecords) = .ok sr ∧ Shapefile.Shapes D sr.noM sr.shp 100 (.ok shapes) ∧
    dr.shapeRecords pyFloat (.ok shapes) = .ok l ∧ l.mapM (shapeRecordOf val) = .ok l' ∧ sf2pf l' getname size = .ok file

end

namespace Shapefile
variable {D : Type} [Double D]

/-- A history of `poly` calls with the default type. -/
def Writer.polys (w : Writer D) : List (List (List (List D))) → Py (Writer D)
  | [] => .ok w
  | parts :: rest => do
    let w ← w.poly parts 5
    w.polys rest

end Shapefile
end Coral
