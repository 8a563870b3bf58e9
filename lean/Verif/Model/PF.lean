import Verif.Model.Vlv
import Verif.Model.BBox
import Verif.PyNum
import Verif.PyList

/-!
# Model of `coral/pf.py`: `Writer` (151-240) and `Reader` (242-312)

Coordinates are elements of an ordered field with a floor (exact arithmetic). Files are byte lists. Left out: the error
estimates `errs` (they do not influence the file), the `print` of lines 197-199, and `sf2pf` (which only loops over
`write`). The state of a `Writer` after `write` raised is not modelled; all theorems are about histories of successful
calls.
-/
namespace Coral

/-- pf.py:72 -/
def umax2 : Int := 65535

section
variable {K : Type} [Field K] [LinearOrder K] [FloorRing K]

/-- pf.py:123-138 `getfmt`: the size of one number and `umax`. -/
def getfmt (size : Nat) : Py Int :=
  if size ∈ [1, 2, 4, 8] then .ok (256 ^ size - 1) else .error .valueError

/-- pf.py:168-171: the value after the two loops over `lon` (`wrapLon_loops` proves that the loops end with it). -/
def wrapLon (lon : K) : K :=
  if lon < -180 then lon + 360 * (⌈(-180 - lon) / 360⌉ : K)
  else if 180 < lon then lon - 360 * (⌈(lon - 180) / 360⌉ : K)
  else lon

/-- pf.py:172-175: the loops over `lat`. The second one increases `lat` while it is above 90, so it never ends
(`wrapLat_loops`, `wrapLat_hangs`). -/
def wrapLat (lat : K) : Res K :=
  if lat < -90 then .ok (lat + 180 * (⌈(-90 - lat) / 180⌉ : K))
  else if 90 < lat then .hang
  else .ok lat

/-- pf.py:167-176 -/
def wrapPoint (p : K × K) : Res (K × K) := do
  let lat ← wrapLat p.2
  return (wrapLon p.1, lat)

/-- pf.py:178-182: drop a repeated closing point. `part[0]` of an empty part raises `IndexError`. -/
def dropClosing (part : List (K × K)) : Py (List (K × K)) :=
  match part with
  | [] => .error .indexError
  | p :: ps => .ok (if p = (p :: ps).getLast (by simp) then (p :: ps).dropLast else p :: ps)

/-- pf.py:184-190: `bb` after the loop. -/
def partsBox : Option (BBox K) → List (List (K × K)) → Py (Option (BBox K))
  | bb, [] => .ok bb
  | bb, part :: parts => do
    let b ← BBox.ofPoints part
    match bb with
    | none => partsBox (some b) parts
    | some bb => partsBox (some (bb.union b)) parts

/-- A box as stored: `x0, x1, y0, y1`. -/
structure QBox (α : Type) where
  x0 : α
  x1 : α
  y0 : α
  y1 : α
  deriving DecidableEq, Repr

/-- pf.py:193-196 -/
def quantBox (bb : BBox K) : QBox Int where
  x0 := ⌊(bb.x0 + 180) * (umax2 : K) / 360⌋
  x1 := ⌈(bb.x1 + 180) * (umax2 : K) / 360⌉
  y0 := ⌊(bb.y0 + 90) * (umax2 : K) / 180⌋
  y1 := ⌈(bb.y1 + 90) * (umax2 : K) / 180⌉

/-- pf.py:201-204 and 273-276 -/
def dequantBox (q : QBox Int) : QBox K where
  x0 := (q.x0 : K) * 360 / (umax2 : K) - 180
  x1 := (q.x1 : K) * 360 / (umax2 : K) - 180
  y0 := (q.y0 : K) * 180 / (umax2 : K) - 90
  y1 := (q.y1 : K) * 180 / (umax2 : K) - 90

/-- pf.py:207-210: `struct.pack` of one point. -/
def packPoint (size : Nat) (umax : Int) (q : QBox K) (p : K × K) : Py (List Byte) :=
  if q.x1 - q.x0 = 0 ∨ q.y1 - q.y0 = 0 then .error .zeroDivisionError
  else do
    let ulon := pyRound ((p.1 - q.x0) * (umax : K) / (q.x1 - q.x0))
    let ulat := pyRound ((p.2 - q.y0) * (umax : K) / (q.y1 - q.y0))
    let a ← packU size ulon
    let b ← packU size ulat
    return a ++ b

/-- pf.py:208-209, 211-212: the position `lon2`, `lat2` which the stored numbers stand for. -/
def storedAs (umax : Int) (q : QBox K) (p : K × K) : K × K :=
  let ulon := pyRound ((p.1 - q.x0) * (umax : K) / (q.x1 - q.x0))
  let ulat := pyRound ((p.2 - q.y0) * (umax : K) / (q.y1 - q.y0))
  (q.x0 + (ulon : K) * (q.x1 - q.x0) / (umax : K), q.y0 + (ulat : K) * (q.y1 - q.y0) / (umax : K))

/-- What one `write` adds to `names`, `partlens` and `bboxes`; the three lists grow together. -/
structure PEntry where
  name : List Nat
  partlen : List Nat
  box : QBox Int
  deriving DecidableEq, Repr

/-- pf.py:153-161: `size`, the index entries, and the concatenation of `buffers`. -/
structure PWriter where
  size : Nat
  umax : Int
  entries : List PEntry
  data : List Byte
  deriving DecidableEq, Repr

/-- pf.py:153-161 -/
def PWriter.init (size : Nat) : Py PWriter := do
  let umax ← getfmt size
  return ⟨size, umax, [], []⟩

/-- pf.py:205-215: all the points of all the parts. -/
def packParts (size : Nat) (umax : Int) (q : QBox K) (parts : List (List (K × K))) : Py (List Byte) := do
  let bss ← parts.flatten.mapM (packPoint size umax q)
  return bss.flatten

/-- pf.py:163-215 -/
def PWriter.write (w : PWriter) (name : List Nat) (polygons : List (List (K × K))) : Res PWriter := do
  let wrapped ← polygons.mapM (fun poly => poly.mapM wrapPoint)
  let parts ← Res.lift (wrapped.mapM dropClosing)
  let bb ← Res.lift (partsBox none parts)
  match bb with
  | none => .raise .attributeError
  | some bb =>
    let q := quantBox bb
    let bytes ← Res.lift (packParts w.size w.umax (dequantBox q : QBox K) parts)
    return { w with entries := w.entries ++ [⟨name, parts.map List.length, q⟩], data := w.data ++ bytes }

/-- A history of `write` calls. -/
def PWriter.writeAll (w : PWriter) : List (List Nat × List (List (K × K))) → Res PWriter
  | [] => .ok w
  | (name, polygons) :: ws => do
    let w ← w.write name polygons
    w.writeAll ws

/-- pf.py:228-236: one entry of the index. -/
def writeEntry (e : PEntry) : Py (List Byte) := do
  let name ← writeascii e.name
  let x0 ← packU 2 e.box.x0
  let x1 ← packU 2 e.box.x1
  let y0 ← packU 2 e.box.y0
  let y1 ← packU 2 e.box.y1
  return name ++ (writevlv e.partlen.length ++ (x0 ++ (x1 ++ (y0 ++ (y1 ++ e.partlen.flatMap writevlv)))))

/-- pf.py:217-239: the contents of the file. -/
def PWriter.close (w : PWriter) : Py (List Byte) := do
  let sz ← packU 1 w.size
  let nrows := (w.entries.map (fun e => e.partlen.sum)).sum
  let index ← w.entries.mapM writeEntry
  return [0x50, 0x46, 0] ++ (sz ++ (writevlv nrows ++ (writevlv w.entries.length ++ (index.flatten ++ w.data))))

/-- pf.py:283-288: the attributes of an open `Reader`; `file` is the open file. -/
structure PReader (K : Type) where
  file : List Byte
  datapos : Nat
  size : Nat
  umax : Int
  names : List (List Nat)
  bboxes : List (QBox K)
  partlens : List (List Nat)
  deriving DecidableEq

/-- `ord(pf.read(1))` -/
def readOrd : List Byte → Py (Nat × List Byte)
  | [] => .error .typeError
  | b :: rest => .ok (b, rest)

/-- `struct.unpack(">H", pf.read(2))` -/
def readH (s : List Byte) : Py (Nat × List Byte) := do
  let (bs, rest) := readN 2 s
  let v ← unpackU 2 bs
  return (v, rest)

/-- pf.py:278-281 -/
def readLens : Nat → List Byte → Py (List Nat × List Byte)
  | 0, s => .ok ([], s)
  | n + 1, s => do
    let (v, s) ← readvlv s
    let (vs, s) ← readLens n s
    return (v :: vs, s)

/-- pf.py:268-282: an index entry after its name. -/
def readEntryTail (s : List Byte) : Py ((List Nat × QBox Int) × List Byte) := do
  let (nparts, s) ← readvlv s
  let (x0, s) ← readH s
  let (x1, s) ← readH s
  let (y0, s) ← readH s
  let (y1, s) ← readH s
  let (partlen, s) ← readLens nparts s
  return ((partlen, ⟨x0, x1, y0, y1⟩), s)

/-- pf.py:265-282 -/
def readEntry (s : List Byte) : Res (PEntry × List Byte) := do
  let (name, s) ← readascii s
  let ((partlen, box), s) ← Res.lift (readEntryTail s)
  return (⟨name, partlen, box⟩, s)

/-- pf.py:265-282: the loop over the entities. -/
def readEntries : Nat → List Byte → Res (List PEntry × List Byte)
  | 0, s => .ok ([], s)
  | n + 1, s => do
    let (e, s) ← readEntry s
    let (es, s) ← readEntries n s
    return (e :: es, s)

/-- pf.py:254-261: everything before the first entity; returns the size, the number of entities, and the rest. -/
def readFixed (file : List Byte) : Py ((Nat × Nat) × List Byte) := do
  let (sig, s) := readN 2 file
  pyAssert (sig == [0x50, 0x46])
  let (ver, s) := readN 1 s
  pyAssert (ver == [0])
  let (size, s) ← readOrd s
  pyAssert (size ∈ [1, 2, 4, 8])
  let (_, s) ← readvlv s
  let (nentities, s) ← readvlv s
  return ((size, nentities), s)

/-- pf.py:244-247 and 252-288 -/
def PReader.open (file : List Byte) : Res (PReader K) := do
  let ((size, nentities), s) ← Res.lift (readFixed file)
  let (es, s) ← readEntries nentities s
  let umax ← Res.lift (getfmt size)
  return { file, datapos := file.length - s.length, size, umax, names := es.map (·.name),
           bboxes := es.map (fun e => dequantBox e.box), partlens := es.map (·.partlen) }

/-- pf.py:301: `struct.unpack(self.fmt, pf.read(self.size * 2))` -/
def unpackPair (size : Nat) (bs : List Byte) : Py (Nat × Nat) :=
  if bs.length = size * 2 then .ok (beVal (bs.take size), beVal (bs.drop size)) else .error .structError

/-- pf.py:300-304 -/
def readPoints (r : PReader K) (q : QBox K) : Nat → List Byte → Py (List (K × K) × List Byte)
  | 0, s => .ok ([], s)
  | n + 1, s => do
    let (bs, s) := readN (r.size * 2) s
    let (ulon, ulat) ← unpackPair r.size bs
    let lon := q.x0 + (ulon : K) * (q.x1 - q.x0) / (r.umax : K)
    let lat := q.y0 + (ulat : K) * (q.y1 - q.y0) / (r.umax : K)
    let (ps, s) ← readPoints r q n s
    return ((lon, lat) :: ps, s)

/-- pf.py:297-306 -/
def readParts (r : PReader K) (q : QBox K) : List Nat → List Byte → Py (List (List (K × K)) × List Byte)
  | [], s => .ok ([], s)
  | n :: ns, s => do
    let (p, s) ← readPoints r q n s
    let (ps, s) ← readParts r q ns s
    return (p :: ps, s)

/-- Python's `l[:i]` -/
def pyTake {α : Type} (l : List α) (i : Int) : List α :=
  if 0 ≤ i then l.take i.toNat else l.take (l.length - (-i).toNat)

/-- pf.py:290-306. The file position before the call is `pos`; the second component is the position afterwards. -/
def PReader.read (r : PReader K) (_pos : Nat) (idx : Int) : Py (List (List (K × K)) × Nat) := do
  let q ← pyIndex r.bboxes idx
  let offset := r.datapos + ((pyTake r.partlens idx).map (fun pl => pl.sum * r.size * 2)).sum
  let pls ← pyIndex r.partlens idx
  let (parts, s) ← readParts r q pls (r.file.drop offset)
  return (parts, r.file.length - s.length)

/-- `names.index(name)`: the first index, or `ValueError`. -/
def indexOf (name : List Nat) : List (List Nat) → Py Nat
  | [] => .error .valueError
  | n :: ns => if n = name then .ok 0 else do
    let i ← indexOf name ns
    return i + 1

/-- pf.py:308-309 -/
def PReader.get (r : PReader K) (pos : Nat) (name : List Nat) : Py (List (List (K × K)) × Nat) := do
  let i ← indexOf name r.names
  r.read pos i

end
end Coral
