import Verif.Model.PF
import Verif.Model.Sphere
import Verif.Model.Raster

/-!
# Model of `sf2pf` and of the errors that `Writer.close` returns, `coral/pf.py`
-/
namespace Coral

/-- pf.py:213: the error of one point. -/
noncomputable def pointErr (umax : Int) (q : QBox ℝ) (p : ℝ × ℝ) : Py ℝ :=
  Sph.haversine p.1 p.2 (storedAs umax q p).1 (storedAs umax q p).2 none

/-- pf.py:163-215, with `self.errs`. In the source the two loops over the points are one. -/
noncomputable def PWriter.writeErrs (w : PWriter) (errs : List ℝ) (name : List Nat) (polygons : List (List (ℝ × ℝ))) : Res (PWriter × List ℝ) := do
  let wrapped ← polygons.mapM (fun poly => poly.mapM wrapPoint)
  let parts ← Res.lift (wrapped.mapM dropClosing)
  let bb ← Res.lift (partsBox none parts)
  match bb with
  | none => .raise .attributeError
  | some bb =>
    let q := quantBox bb
    let bytes ← Res.lift (packParts w.size w.umax (dequantBox q : QBox ℝ) parts)
    let es ← Res.lift (parts.flatten.mapM (pointErr w.umax (dequantBox q)))
    return ({ w with entries := w.entries ++ [⟨name, parts.map List.length, q⟩], data := w.data ++ bytes }, errs ++ es)

/-- A history of `write` calls. -/
noncomputable def PWriter.writeAllErrs (w : PWriter) (errs : List ℝ) : List (List Nat × List (List (ℝ × ℝ))) → Res (PWriter × List ℝ)
  | [] => .ok (w, errs)
  | (name, polygons) :: ws => do
    let (w, errs) ← w.writeErrs errs name polygons
    w.writeAllErrs errs ws

/-- pf.py:145-147: the parts of a shape; `parts` is not an attribute of null shapes and points. -/
def shapeParts {α : Type} (points : List α) (parts : Option (List Int)) : Py (List (List α)) :=
  match parts with
  | none => .error .attributeError
  | some ps =>
    let offsets := ps ++ [(points.length : Int)]
    .ok ((offsets.dropLast.zip offsets.tail).map fun ab => pySlice points ab.1 ab.2)

section
variable {K : Type} [Field K] [LinearOrder K] [FloorRing K] {R : Type}

/-- pf.py:143-148: the loop; a shape is its points, as pairs, and its parts. -/
def sf2pfLoop (getname : R → Py (List Nat)) (w : PWriter) : List ((List (K × K) × Option (List Int)) × R) → Res PWriter
  | [] => .ok w
  | (shape, record) :: rest => do
    let name ← Res.lift (getname record)
    let parts ← Res.lift (shapeParts shape.1 shape.2)
    let w ← w.write name parts
    sf2pfLoop getname w rest

/-- pf.py:140-149, from the result of `shapeRecords()` on; the contents of the P file. -/
def sf2pf (shapeRecords : List ((List (K × K) × Option (List Int)) × R)) (getname : R → Py (List Nat)) (size : Nat) : Res (List Byte) := do
  let w ← Res.lift (PWriter.init size)
  let w ← sf2pfLoop getname w shapeRecords
  Res.lift w.close

end
end Coral
