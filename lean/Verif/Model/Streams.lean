import Verif.Model.SaveTo

/-!
# Shapefiles in open files, missing files and readers used again

shapefile.py writes to open file objects in place: `__shapefileHeader` and `__dbfHeader` go to the start of the file, nothing is truncated.
A file object is its bytes and the position (`File`). What is left in a file after an exception is not modelled here (see `SaveTo`).
-/
namespace Coral
namespace Shapefile

section
variable {D : Type} [Double D]

/-- shapefile.py:1008-1016 `saveShp(f)` for an open file: 724-754 writes the header from 0 on, 790-896 the records from 100 on. -/
def Writer.saveShpInto (w : Writer D) (f : File) : Py (Writer D × File) := do
  let w ← w.withType
  let t ← number w.shapeType
  let h ← header (shpFileLength t w.shapes) t w.shapes
  let f := ((f.seek 0).write h).seek 100
  let (f, offs, lens, ss) ← recordsLoop w.shapeType 1 f w.offsets w.lengths w.shapes
  return ({ w with shapes := ss, offsets := offs, lengths := lens }, f)

/-- shapefile.py:1018-1026, 898-904 `saveShx(f)` for an open file. -/
def Writer.saveShxInto (w : Writer D) (f : File) : Py (Writer D × File) := do
  let w ← w.withType
  let t ← number w.shapeType
  let h ← header (.ok ((100 + w.shapes.length * 8) / 2)) t w.shapes
  let rs ← shxRecords w.offsets w.lengths w.shapes.length
  return (w, (((f.seek 0).write h).seek 100).write rs)

end

end Shapefile

namespace Dbf

open Shapefile (File)

/-- shapefile.py:1028-1034, 756-788, 906-924 `saveDbf(f)` for an open file: the records follow the header. -/
def Writer.saveDbfInto (w : Writer) (year month day : Int) (f : File) : Py (Writer × File) := do
  let fields := dropDeletion w.fields.length 0 w.fields
  let h ← header year month day fields w.records.length
  let rs ← w.records.mapM (writeRecord fields)
  return ({ w with fields := fields }, ((f.seek 0).write h).write rs.flatten)

/-- shapefile.py:270-293 `load(name)` for a reader that has read another file: the new `.dbf` is open at its start, the header is read into
the same object. -/
def Reader.load (r : Reader) (data : List Byte) : Py Reader := Reader.header { r with data := data, pos := 0 }

end Dbf

namespace Shapefile

section
variable {D : Type} [Double D]

/-- shapefile.py:270-293 `load(name)` for a reader that has read another shapefile, the geometry: `_offsets` and, because the length of the
`.dbf` header is known (453-461), `numRecords` are left as they are. -/
def Reader.load (r : Reader D) (shp : List Byte) (shx : Option (List Byte)) : Py (Reader D) := do
  let (_, _, m) ← shpHeader shp
  return { r with shp := shp, shx := shx, measure := m, pos := 100 }

/-- shapefile.py:228-256, 270-293 `Reader(shp=..., shx=..., dbf=...)`: what is there is read, an index without shapes is not looked at. -/
def Reader.objects (shp shx dbf : Option (List Byte)) : Py (Option (Reader D) × Option Dbf.Reader) :=
  match shp, dbf with
  | none, none => .error .shapefileException
  | none, some dbf => do return (none, some (← Dbf.Reader.new dbf))
  | some shp, none => do return (some (← Reader.new shp shx none), none)
  | some shp, some dbf => do
    let g ← Reader.new shp shx none
    let a ← Dbf.Reader.new dbf
    return (some { g with numRecords := some a.numRecords }, some a)

end

end Shapefile
end Coral
