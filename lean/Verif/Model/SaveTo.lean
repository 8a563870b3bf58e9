import Verif.Model.Dbf

/-!
# Model of saving and opening shapefiles by name (`coral/shapefile.py`)

A disk gives the contents of files by path. That a directory is missing, or that a file cannot be opened for writing, is not modelled.
-/
namespace Coral
namespace Shapefile

/-- The files by their paths. -/
abbrev Disk := Str → Option (List Byte)

def Disk.put (d : Disk) (path : Str) (bs : List Byte) : Disk := fun p => if p = path then some bs else d p

/-- `os.path.splitext(path)[0]` (POSIX): the path up to the last dot of its last component, if something other than dots comes before that. -/
def root (path : Str) : Str :=
  match path.reverse.dropWhile (fun c => c ≠ '.' && c ≠ '/') with
  | '.' :: rest => if (rest.takeWhile (· ≠ '/')).any (· ≠ '.') then rest.reverse else path
  | _ => path

def shpExt : Str := ['.', 's', 'h', 'p']
def shxExt : Str := ['.', 's', 'h', 'x']
def dbfExt : Str := ['.', 'd', 'b', 'f']

/-- What a `Writer` holds. -/
structure Source (D : Type) where
  geometry : Writer D
  attributes : Dbf.Writer

variable {D : Type} [Double D]

/-- shapefile.py:1008-1016, 1018-1026: `saveShp` and `saveShx` on a name. The file is opened after the shape type is found; opening it for writing
empties it. If writing raises, `left` is what has got into it. -/
def put {α : Type} (d : Disk) (path : Str) (ready : Py Unit) (left : List Byte) (file : Py (α × List Byte)) : Disk × Py α :=
  match ready, file with
  | .error e, _ => (d, .error e)
  | .ok _, .ok (a, bs) => (d.put path bs, .ok a)
  | .ok _, .error e => (d.put path left, .error e)

/-- shapefile.py:1036-1065 `save(target)`: the disk afterwards; `year`, `month` and `day` are those of the clock. -/
def Source.saveTo (s : Source D) (d : Disk) (target : Str) (year month day : Int) (left : List Byte) : Disk × Py Unit :=
  let (d, w) := put d (root target ++ shpExt) (s.geometry.withType.map (fun _ => ())) left s.geometry.saveShp
  match w with
  | .error e => (d, .error e)
  | .ok w =>
    let (d, w) := put d (root target ++ shxExt) (w.withType.map (fun _ => ())) left w.saveShx
    match w with
    | .error e => (d, .error e)
    | .ok _ =>
      let (d, w) := put d (root target ++ dbfExt) (.ok ()) left (s.attributes.saveDbf year month day)
      (d, w.map (fun _ => ()))

/-- shapefile.py:270-293 `load(name)`: the files that are opened. -/
def load (d : Disk) (name : Str) : Py (List Byte × List Byte × List Byte) :=
  match d (root name ++ shpExt), d (root name ++ shxExt), d (root name ++ dbfExt) with
  | some shp, some shx, some dbf => .ok (shp, shx, dbf)
  | _, _, _ => .error .shapefileException

end Shapefile
end Coral
