import Verif.Model.SaveTo
import Verif.Model.Editing
import Verif.Model.EditDbf

/-!
# Model of `Editor(name)` and of calls on the editor (`coral/shapefile.py`)
-/
namespace Coral
namespace Shapefile

variable {D F : Type} [Double D]

/-- The first argument of `Editor`: `None`, a name, or something else such as an open file. -/
inductive Given where
  | nothing | name (s : Str) | object

/-- shapefile.py:1067-1078, an `Editor`. All attributes but `autoBalance` are set by `Writer.__init__`; `none` is an object for which that was
never called. -/
structure Session (D : Type) where
  self : Option (Source D)

/-- shapefile.py:1068-1078 `Editor(shapefile, shapeType)` on a disk. `Reader(base)` takes the extension off again (shapefile.py:276). As a relation,
since the loop of `shapes()` need not end; that the constructor raises is that there is no editor. -/
inductive Opens (pyFloat : List Byte → Py F) (floatStr : F → Str) (shapeType : Option Int) (d : Disk) : Given → Session D → Prop
  | nothing : Opens pyFloat floatStr shapeType d .nothing ⟨some ⟨{ shapeType }, {}⟩⟩
  | empty : Opens pyFloat floatStr shapeType d (.name []) ⟨some ⟨{ shapeType }, {}⟩⟩
  | there {s shp shx dbf w a} : s ≠ [] → (d (root s ++ shpExt)).isSome → load d (root s) = .ok (shp, shx, dbf) → Opened shp w →
      Dbf.edit pyFloat floatStr dbf = .ok a → Opens pyFloat floatStr shapeType d (.name s) ⟨some ⟨w, a⟩⟩
  | missing {s} : s ≠ [] → d (root s ++ shpExt) = none → Opens pyFloat floatStr shapeType d (.name s) ⟨none⟩
  | object : Opens pyFloat floatStr shapeType d .object ⟨none⟩

/-- Calls on an editor that it has from `Writer`. -/
inductive Call (D : Type) where
  | null | poly (parts : List (List (List D))) (shapeType : Int) | field (name type : Str) (size deci : Int) | record (values : List Dbf.Attr)
  | shapes | saveShp (target : Str) | saveShx (target : Str) | saveDbf (target : Str) | save (target : Str)

/-- `self.x` for an attribute that `Writer.__init__` sets. -/
def Session.get (e : Session D) : Py (Source D) := attr e.self

/-- The disk, the editor and the outcome after a call (shapefile.py:925-1065; the methods named like the calls). The date is that of the clock; `left`
is what has got into a file before writing it raised. `saveShp` and `saveShx` look at `self.shapeType` before they open the file, `saveDbf` opens the
file first; nothing is in it when `self.records` is looked at. -/
def Session.call (e : Session D) (d : Disk) (year month day : Int) (left : List Byte) : Call D → Disk × Session D × Py Unit
  | .null => match e.get with
    | .error x => (d, e, .error x)
    | .ok s => (d, ⟨some { s with geometry := s.geometry.null }⟩, .ok ())
  | .poly parts t => match e.get with
    | .error x => (d, e, .error x)
    | .ok s => match s.geometry.poly parts t with
      | .error x => (d, e, .error x)
      | .ok w => (d, ⟨some { s with geometry := w }⟩, .ok ())
  | .field name type size deci => match e.get with
    | .error x => (d, e, .error x)
    | .ok s => (d, ⟨some { s with attributes := s.attributes.field name type size deci }⟩, .ok ())
  | .record values => match e.get with
    | .error x => (d, e, .error x)
    | .ok s => match s.attributes.record values with
      | .error x => (d, e, .error x)
      | .ok w => (d, ⟨some { s with attributes := w }⟩, .ok ())
  | .shapes => (d, e, e.get.map (fun _ => ()))
  | .saveShp target =>
    let (d, r) := put d (root target ++ shpExt) (do let s ← e.get; let _ ← s.geometry.withType; return ()) left
      (do let s ← e.get; s.geometry.saveShp)
    match r, e.self with
    | .ok w, some s => (d, ⟨some { s with geometry := w }⟩, .ok ())
    | .error x, _ => (d, e, .error x)
    | .ok _, none => (d, e, .ok ())
  | .saveShx target =>
    let (d, r) := put d (root target ++ shxExt) (do let s ← e.get; let _ ← s.geometry.withType; return ()) left
      (do let s ← e.get; s.geometry.saveShx)
    match r, e.self with
    | .ok w, some s => (d, ⟨some { s with geometry := w }⟩, .ok ())
    | .error x, _ => (d, e, .error x)
    | .ok _, none => (d, e, .ok ())
  | .saveDbf target =>
    let (d, r) := put d (root target ++ dbfExt) (.ok ()) (if e.self.isNone then [] else left) (do let s ← e.get; s.attributes.saveDbf year month day)
    (d, e, r.map (fun _ => ()))
  | .save target => match e.get with
    | .error x => (d, e, .error x)
    | .ok s => let (d, r) := s.saveTo d target year month day left; (d, e, r)

end Shapefile
end Coral
