import Verif.Py
import Mathlib.Order.Defs.LinearOrder
import Mathlib.Algebra.Notation.Defs

/-!
# Model of `coral/shapefile.py`: the `.shp` and `.shx` files

Coordinates are floats as `struct` sees them: eight bytes, packed and unpacked without loss, ordered; NaN and the negative zero are
left out. Files are opened by name, so a saved file starts empty. An argument that is not a number is not modelled.
-/
namespace Coral
namespace Shapefile

/-- Floats: `enc` is `pack("<d", x)`, `dec` is `unpack`; `noData` is -10e38. -/
class Double (D : Type) extends LinearOrder D, Zero D where
  enc : D → List Byte
  dec : List Byte → D
  noData : D
  enc_length : ∀ d, (enc d).length = 8
  dec_enc : ∀ d, dec (enc d) = d

/-- Bytes of `pack("<i", v)`, reversed for `">i"`. -/
def packI (v : Int) : Py (List Byte) :=
  if -2147483648 ≤ v ∧ v ≤ 2147483647 then .ok (leBytes 4 (v % 4294967296).toNat) else .error .structError

/-- `pack(">i", v)` -/
def packBI (v : Int) : Py (List Byte) := do return (← packI v).reverse

/-- The signed value of four bytes, least significant first. -/
def signed (bs : List Byte) : Int := if leVal bs < 2147483648 then leVal bs else (leVal bs : Int) - 4294967296

/-- A file opened for writing: its bytes and the position. -/
structure File where
  data : List Byte
  pos : Nat

/-- `f.write(bs)` -/
def File.write (f : File) (bs : List Byte) : File :=
  ⟨f.data.take f.pos ++ List.replicate (f.pos - f.data.length) 0 ++ bs ++ f.data.drop (f.pos + bs.length), f.pos + bs.length⟩

/-- `f.seek(p)` -/
def File.seek (f : File) (p : Nat) : File := { f with pos := p }

/-- shapefile.py:114-126 `_Shape`. An attribute that is not set is `none`; a measure `None` is `none`. -/
structure Shape (D : Type) where
  shapeType : Option Int
  points : List (List D) := []
  parts : Option (List Int) := none
  partTypes : Option (List Int) := none
  z : Option (List D) := none
  m : Option (List (Option D)) := none
  bbox : Option (List D) := none
  deriving DecidableEq

/-- shapefile.py:585-598, the part of a `Writer` that concerns the geometry. -/
structure Writer (D : Type) where
  shapes : List (Shape D) := []
  shapeType : Option Int := none
  offsets : List Nat := []
  lengths : List Nat := []
  deriving DecidableEq

/-- Reading an attribute that may not be there. -/
def attr {α : Type} : Option α → Py α
  | some a => .ok a
  | none => .error .attributeError

def boxed : List Int := [3, 5, 8, 13, 15, 18, 23, 25, 28, 31]
def parted : List Int := [3, 5, 13, 15, 23, 25, 31]
def pointed : List Int := [3, 5, 8, 13, 15, 23, 25, 31]
def zed : List Int := [13, 15, 18, 31]
def measured : List Int := [13, 15, 18, 23, 25, 28, 31]
def single : List Int := [1, 11, 21]

section
variable {D : Type} [Double D]

/-! ### Creating shapes -/

/-- shapefile.py:925-927. -/
def Writer.null (w : Writer D) : Writer D := { w with shapes := w.shapes ++ [{ shapeType := some 0 }] }

/-- shapefile.py:929-933. -/
def Writer.point (w : Writer D) (x y z m : D) : Writer D :=
  { w with shapes := w.shapes ++ [{ shapeType := w.shapeType, points := [[x, y, z, m]] }] }

/-- shapefile.py:950-954 on one part: `part[0]` raises `IndexError` for an empty part. -/
def closePart (part : List (List D)) : Py (List (List D)) :=
  match part.head?, part.getLast? with
  | some a, some b => .ok (if a ≠ b then part ++ [a] else part)
  | _, _ => .error .indexError

/-- shapefile.py:959-963: up to four coordinates. -/
def pad4 (p : List D) : List D := p ++ List.replicate (4 - p.length) 0

/-- shapefile.py:955-964, the loop over the parts: the part starts and the points so far. -/
def polyLoop : List Int → List (List D) → List (List (List D)) → List Int × List (List D)
  | starts, points, [] => (starts, points)
  | starts, points, part :: parts => polyLoop (starts ++ [(points.length : Int)]) (points ++ part.map pad4) parts

/-- shapefile.py:941-970 for parts that are lists (they are closed in place; the points that are lists are padded in place, with the same
values). With part types not given: `partTypes` is one list shared by all such calls, which is not modelled. -/
def Writer.poly (w : Writer D) (parts : List (List (List D))) (shapeType : Int) : Py (Writer D) := do
  let parts ← if shapeType ∈ ([5, 15, 25, 31] : List Int) then parts.mapM closePart else pure parts
  let (starts, points) := polyLoop [] [] parts
  let shape : Shape D :=
    { shapeType := some shapeType, points := points, parts := some starts
      partTypes := if shapeType = 31 then some (parts.map (fun _ => shapeType)) else none }
  return { w with shapes := w.shapes ++ [shape] }

/-- shapefile.py:935-939. -/
def Writer.line (w : Writer D) (parts : List (List (List D))) : Py (Writer D) := w.poly parts 3

/-! ### Boxes -/

/-- `min(l)`, `ValueError` if there is nothing. -/
def minOf : List D → Py D
  | [] => .error .valueError
  | a :: l => .ok (l.foldl min a)

/-- `max(l)` -/
def maxOf : List D → Py D
  | [] => .error .valueError
  | a :: l => .ok (l.foldl max a)

/-- The first two coordinates. -/
def xy : List D → Option (D × D)
  | x :: y :: _ => some (x, y)
  | _ => none

/-- shapefile.py:684 on one shape: `zip` gives as many rows as the shortest point has coordinates, two are needed. -/
def columns (points : List (List D)) : Py (List D × List D) :=
  match points.mapM xy with
  | some (p :: ps) => .ok ((p :: ps).map Prod.fst, (p :: ps).map Prod.snd)
  | _ => .error .valueError

/-- shapefile.py:677-687 `__bbox`. -/
def bboxOf (shapes : List (Shape D)) : Py (List D) := do
  let cs ← shapes.mapM (fun s => columns s.points)
  let x := (cs.map Prod.fst).flatten
  let y := (cs.map Prod.snd).flatten
  return [← minOf x, ← minOf y, ← maxOf x, ← maxOf y]

/-- shapefile.py:691-696, 702-707: the `i`-th coordinates of the points, up to the first point that has none. -/
def coordsUpTo (i : Nat) : List (List D) → List D
  | [] => []
  | p :: ps => match p[i]? with
    | some v => v :: coordsUpTo i ps
    | none => []

/-- shapefile.py:689-698 `__zbox`. -/
def zboxOf (shapes : List (Shape D)) : Py (List D) := do
  let z := (shapes.map (fun s => coordsUpTo 2 s.points)).flatten
  let z := if z = [] then [0] else z
  return [← minOf z, ← maxOf z]

/-- shapefile.py:700-708 `__mbox`. -/
def mboxOf (shapes : List (Shape D)) : Py (List D) := do
  let m := 0 :: (shapes.map (fun s => coordsUpTo 3 s.points)).flatten
  return [← minOf m, ← maxOf m]

/-! ### Writing -/

/-- `if c: size += k(nParts)`: a variable without a value raises `UnboundLocalError`. -/
def partsSize (c : Prop) [Decidable c] (nParts : Option Nat) (k : Nat → Nat) : Py Nat :=
  if c then
    match nParts with
    | some n => .ok (k n)
    | none => .error .unboundLocalError
  else .ok 0

/-- shapefile.py:630-631: the variable `nParts` keeps its value if the shape has no parts. -/
def lastParts (nParts : Option Nat) (s : Shape D) : Option Nat :=
  match s.parts with
  | some p => some p.length
  | none => nParts

/-- shapefile.py:623-672, one round of the loop. -/
def sizeOf (t : Int) (nParts : Option Nat) (s : Shape D) : Py (Nat × Option Nat) := do
  let nParts := lastParts nParts s
  let nPoints := s.points.length
  let a := if t ∈ boxed then 32 else 0
  let b ← partsSize (t ∈ parted) nParts (fun n => 4 + n * 4)
  let c := if t ∈ pointed then 4 + 16 * nPoints else 0
  let d ← partsSize (t = 31) nParts (fun n => n * 4)
  let e := if t ∈ zed then 16 + 8 * nPoints else 0
  let f := if t ∈ ([23, 25, 31] : List Int) then 16 + 8 * nPoints else 0
  let g := if t ∈ single then 16 else 0
  let h := if t = 11 then 8 else 0
  let i := if t = 11 ∨ t = 21 then 8 else 0
  return (12 + a + b + c + d + e + f + g + h + i, nParts)

/-- shapefile.py:622-673. -/
def sizesOf (t : Int) : Option Nat → List (Shape D) → Py Nat
  | _, [] => .ok 0
  | n, s :: ss => do
    let (k, n) ← sizeOf t n s
    return k + (← sizesOf t n ss)

/-- shapefile.py:618-675 `__shpFileLength`. -/
def shpFileLength (t : Int) (shapes : List (Shape D)) : Py Nat := do return (100 + (← sizesOf t none shapes)) / 2

/-- `pack("<nd", ...)` -/
def encAll (l : List D) : List Byte := l.flatMap Double.enc

/-- shapefile.py:740-746 -/
def headerBox (t : Int) (shapes : List (Shape D)) : Py (List D) := if t ≠ 0 then bboxOf shapes else .ok [0, 0, 0, 0]

/-- shapefile.py:724-754 `__shapefileHeader`; `length` is the length field. `self.shapeType` is a number by now. -/
def header (length : Py Nat) (t : Int) (shapes : List (Shape D)) : Py (List Byte) := do
  let b1 ← ([9994, 0, 0, 0, 0, 0] : List Int).mapM packBI
  let b2 ← packBI (← length)
  let b3 ← packI 1000
  let b4 ← packI t
  let box ← headerBox t shapes
  let z ← zboxOf shapes
  let m ← mboxOf shapes
  return b1.flatten ++ b2 ++ b3 ++ b4 ++ encAll box ++ encAll z ++ encAll m

/-- shapefile.py:827 `pack("<2d", *p[:2])`; `struct.error` is turned into `ShapefileException`. -/
def packPoint (p : List D) : Py (List Byte) :=
  match p with
  | x :: y :: _ => .ok (Double.enc x ++ Double.enc y)
  | _ => .error .shapefileException

/-- shapefile.py:848 `pack("<d", p[3])`. -/
def packM (p : List D) : Py (List Byte) :=
  match p[3]? with
  | some v => .ok (Double.enc v)
  | none => .error .indexError

/-- shapefile.py:858-872: the z value of a single point, and the shape with a point made longer. -/
def pointZ (s : Shape D) : Py (List Byte × Shape D) :=
  match s.z with
  | some [] => .ok (Double.enc (0 : D), { s with z := some [0] })
  | some (v :: _) => .ok (Double.enc v, s)
  | none =>
    match s.points with
    | [] => .error .indexError
    | p :: ps =>
      let p := if p.length < 3 then p ++ [0] else p
      match p[2]? with
      | some v => .ok (Double.enc v, { s with points := p :: ps })
      | none => .error .indexError

/-- shapefile.py:874-888: the measure of a single point. `pack` of `None` raises. -/
def pointM (s : Shape D) : Py (List Byte × Shape D) :=
  match s.m with
  | some [] => .ok (Double.enc (0 : D), { s with m := some [some 0] })
  | some (some v :: _) => .ok (Double.enc v, s)
  | some (none :: _) => .error .shapefileException
  | none =>
    match s.points with
    | [] => .error .indexError
    | p :: ps =>
      let p := if p.length < 4 then p ++ [0] else p
      match p[3]? with
      | some v => .ok (Double.enc v, { s with points := p :: ps })
      | none => .error .indexError

/-- `if c: f.write(x)` -/
def writeIf (c : Prop) [Decidable c] (x : Py (List Byte)) : Py (List Byte) := if c then x else .ok []

/-- shapefile.py:818-819, 822-823 -/
def packAll (l : List Int) : Py (List Byte) := do return (← l.mapM packI).flatten

/-- shapefile.py:854 -/
def packFirst (s : Shape D) : Py (List Byte) :=
  match s.points with
  | (x :: y :: _) :: _ => .ok (Double.enc x ++ Double.enc y)
  | _ => .error .indexError

/-- shapefile.py:802-856: what is written after the type and before the z value of a single point. -/
def body (s : Shape D) (t : Int) : Py (List Byte) := do
  let b1 ← writeIf (t ∈ boxed) (do return encAll (← bboxOf [s]))
  let b2 ← writeIf (t ∈ parted) (do packI (← attr s.parts).length)
  let b3 ← writeIf (t ∈ pointed) (packI s.points.length)
  let b4 ← writeIf (t ∈ parted) (do packAll (← attr s.parts))
  let b5 ← writeIf (t = 31) (do packAll (← attr s.partTypes))
  let b6 ← writeIf (t ∈ pointed) (do return (← s.points.mapM packPoint).flatten)
  let b7 ← writeIf (t ∈ zed) (do return encAll (← zboxOf [s]) ++ encAll (← attr s.z))
  let b8 ← writeIf (t ∈ measured) (do return encAll (← mboxOf [s]) ++ (← s.points.mapM packM).flatten)
  let b9 ← writeIf (t ∈ single) (packFirst s)
  return b1 ++ b2 ++ b3 ++ b4 ++ b5 ++ b6 ++ b7 ++ b8 ++ b9

/-- `if c: ...` for code that writes and may change the shape. -/
def changeIf (c : Prop) [Decidable c] (x : Shape D → Py (List Byte × Shape D)) (s : Shape D) : Py (List Byte × Shape D) :=
  if c then x s else .ok ([], s)

/-- shapefile.py:801-888: what is written after the record header, for a shape whose type is set, and the shape afterwards. -/
def content (s : Shape D) (t : Int) : Py (List Byte × Shape D) := do
  let b0 ← packI t
  let b ← body s t
  let (bz, s) ← changeIf (t = 11) pointZ s
  let (bm, s) ← changeIf (t = 11 ∨ t = 21) pointM s
  return (b0 ++ b ++ bz ++ bm, s)

/-- shapefile.py:799-800 -/
def retype (w : Option Int) (s : Shape D) : Shape D := if w ≠ some 31 then { s with shapeType := w } else s

/-- `pack("<i", t)` and `pack("<2i", 1000, t)` raise `struct.error` for `None`. -/
def number : Option Int → Py Int
  | some t => .ok t
  | none => .error .structError

/-- shapefile.py:787-896, the loop of `__shpRecords`; the lists `_offsets` and `_lengths` grow (what remains of a loop that
raises is not modelled). -/
def recordsLoop (w : Option Int) : Nat → File → List Nat → List Nat → List (Shape D) → Py (File × List Nat × List Nat × List (Shape D))
  | _, f, offs, lens, [] => .ok (f, offs, lens, [])
  | recNum, f, offs, lens, s :: ss => do
    let offs := offs ++ [f.pos]
    let f := f.write ((← packBI recNum) ++ (← packBI 0))
    let start := f.pos
    let s := retype w s
    let t ← number s.shapeType
    let (bytes, s) ← content s t
    let f := f.write bytes
    let finish := f.pos
    let length := (finish - start) / 2
    let f := (f.seek (start - 4)).write (← packBI length)
    let f := f.seek finish
    let (f, offs, lens, ss) ← recordsLoop w (recNum + 1) f offs (lens ++ [length]) ss
    return (f, offs, lens, s :: ss)

/-- shapefile.py:1012-1013, 1022-1023. -/
def Writer.withType (w : Writer D) : Py (Writer D) :=
  if w.shapeType = none ∨ w.shapeType = some 0 then
    match w.shapes with
    | [] => .error .indexError
    | s :: _ => .ok { w with shapeType := s.shapeType }
  else .ok w

/-- shapefile.py:1008-1016 `saveShp`: the file. -/
def Writer.saveShp (w : Writer D) : Py (Writer D × List Byte) := do
  let w ← w.withType
  let t ← number w.shapeType
  let h ← header (shpFileLength t w.shapes) t w.shapes
  let f := (File.mk h h.length).seek 100
  let (f, offs, lens, ss) ← recordsLoop w.shapeType 1 f w.offsets w.lengths w.shapes
  return ({ w with shapes := ss, offsets := offs, lengths := lens }, f.data)

/-- shapefile.py:898-904 `__shxRecords`: `IndexError` if there are not enough offsets. -/
def shxRecords (offs lens : List Nat) (n : Nat) : Py (List Byte) := do
  let rows ← (List.range n).mapM (fun i : Nat => match offs[i]?, lens[i]? with
    | some o, some l => do return (← packBI (o / 2 : Nat)) ++ (← packBI l)
    | _, _ => .error .indexError)
  return rows.flatten

/-- shapefile.py:1018-1026 `saveShx`. -/
def Writer.saveShx (w : Writer D) : Py (Writer D × List Byte) := do
  let w ← w.withType
  let t ← number w.shapeType
  let h ← header (.ok ((100 + w.shapes.length * 8) / 2)) t w.shapes
  return (w, h ++ (← shxRecords w.offsets w.lengths w.shapes.length))

/-- shapefile.py:1036-1065 `save(target)`, the geometry: both files. -/
def Writer.save (w : Writer D) : Py (Writer D × List Byte × List Byte) := do
  let (w, shp) ← w.saveShp
  let (w, shx) ← w.saveShx
  return (w, shp, shx)

/-! ### Reading -/

/-- `unpack` of one integer read from the file: the value and what is left. -/
def readI (rest : List Byte) : Py (Int × List Byte) :=
  if 4 ≤ rest.length then .ok (signed (rest.take 4), rest.drop 4) else .error .structError

def readBI (rest : List Byte) : Py (Int × List Byte) :=
  if 4 ≤ rest.length then .ok (signed (rest.take 4).reverse, rest.drop 4) else .error .structError

def readD (rest : List Byte) : Py (D × List Byte) :=
  if 8 ≤ rest.length then .ok (Double.dec (rest.take 8), rest.drop 8) else .error .structError

def readDs : Nat → List Byte → Py (List D × List Byte)
  | 0, rest => .ok ([], rest)
  | n + 1, rest => do
    let (d, rest) ← readD rest
    let (ds, rest) ← readDs n rest
    return (d :: ds, rest)

def readIs : Nat → List Byte → Py (List Int × List Byte)
  | 0, rest => .ok ([], rest)
  | n + 1, rest => do
    let (d, rest) ← readI rest
    let (ds, rest) ← readIs n rest
    return (d :: ds, rest)

/-- `"<%si" % n` with a negative number or `None` is not a format: `struct.error`. -/
def count : Option Int → Py Nat
  | some n => if 0 ≤ n then .ok n.toNat else .error .structError
  | none => .error .structError

/-- shapefile.py:364: the loop over `range(nPoints)`. -/
def readPoints : Nat → List Byte → Py (List (List D) × List Byte)
  | 0, rest => .ok ([], rest)
  | n + 1, rest => do
    let (p, rest) ← readDs 2 rest
    let (ps, rest) ← readPoints n rest
    return (p :: ps, rest)

/-- `if c: a = ...read(...)`, where `a` was `None` before. -/
def readIf {α : Type} (c : Prop) [Decidable c] (rd : List Byte → Py (α × List Byte)) (rest : List Byte) : Py (Option α × List Byte) :=
  if c then do
    let (a, rest) ← rd rest
    return (some a, rest)
  else .ok (none, rest)

/-- `if n: ...`, false for 0 and for `None`. -/
def truthy (n : Option Int) : Prop := n ≠ none ∧ n ≠ some 0

instance (n : Option Int) : Decidable (truthy n) := inferInstanceAs (Decidable (_ ∧ _))

/-- shapefile.py:358, 361 -/
def readParts (nParts : Option Int) (rest : List Byte) : Py (List Int × List Byte) := do readIs (← count nParts) rest

/-- shapefile.py:367-368, 371-374: the extremes and the values; `nPoints * 8` raises `TypeError` when it is `None`. -/
def readRange (nPoints : Option Int) (rest : List Byte) : Py (List D × List Byte) := do
  let (_, rest) ← readDs (D := D) 2 rest
  match nPoints with
  | none => .error .typeError
  | some n => do readDs (← count (some n)) rest

/-- shapefile.py:373-378 -/
def noNoData (l : List D) : List (Option D) := l.map (fun v => if v > Double.noData then some v else none)

/-- shapefile.py:342-387 `__shape` from the type on. `noM` is `0.0 in self.measure`. -/
def readBody (noM : Bool) (rest : List Byte) : Py (Shape D) := do
  let (t, rest) ← readI rest
  let (box, rest) ← readIf (t ∈ boxed) (readDs 4) rest
  let (nParts, rest) ← readIf (t ∈ parted) readI rest
  let (nPoints, rest) ← readIf (t ∈ pointed) readI rest
  let (parts, rest) ← readIf (truthy nParts) (readParts nParts) rest
  let (partTypes, rest) ← readIf (t = 31) (readParts nParts) rest
  let (points, rest) ← readIf (truthy nPoints) (readPoints (nPoints.getD 0).toNat) rest
  let (z, rest) ← readIf (t ∈ zed) (readRange nPoints) rest
  let (m, rest) ← readIf (t ∈ measured ∧ noM = false) (readRange nPoints) rest
  let (point, rest) ← readIf (t ∈ single) (readDs 2) rest
  let (pz, rest) ← readIf (t = 11) (readDs 1) rest
  let (pm, _) ← readIf (t = 11 ∨ t = 21) (readDs 1) rest
  return { shapeType := some t, points := (point.map (fun p => [p])).getD (points.getD []), parts := parts, partTypes := partTypes
           z := pz.or z, m := (pm.map (fun l => l.map some)).or (m.map noNoData), bbox := box }

/-- shapefile.py:334-392 `__shape`, from the bytes that follow the position: the shape and `recLength`. -/
def readShape (noM : Bool) (rest : List Byte) : Py (Shape D × Int) := do
  let (_, rest) ← readBI rest
  let (recLength, rest) ← readBI rest
  return (← readBody noM rest, recLength)

/-- shapefile.py:341, 391: the shape at a position and the next position; seeking before the start of the file raises. -/
def shapeAt (noM : Bool) (data : List Byte) (pos : Nat) : Py (Shape D × Nat) := do
  let (s, recLength) ← readShape noM (data.drop pos)
  let next := (pos : Int) + 8 + 2 * recLength
  if 0 ≤ next then return (s, next.toNat) else .error .valueError

/-- shapefile.py:428-441 `shapes`, the loop from a position: how it ends, if it does (a record can lead back). -/
inductive Shapes (D : Type) [Double D] (noM : Bool) (data : List Byte) : Nat → Py (List (Shape D)) → Prop
  | done {pos} : data.length ≤ pos → Shapes D noM data pos (.ok [])
  | raise {pos e} : pos < data.length → shapeAt (D := D) noM data pos = .error e → Shapes D noM data pos (.error e)
  | next {pos pos' s r} : pos < data.length → shapeAt noM data pos = .ok (s, pos') → Shapes D noM data pos' r →
      Shapes D noM data pos (r.map (s :: ·))

/-- shapefile.py:316-332 `__shpHeader`: the length in bytes, the type and the measures. -/
def shpHeader (data : List Byte) : Py (Int × Int × List D) := do
  let (l, _) ← readBI (data.drop 24)
  let (t, rest) ← readI (data.drop 32)
  let (_, rest) ← readDs (D := D) 4 rest
  let (_, rest) ← readDs (D := D) 2 rest
  let (m, _) ← readDs 2 rest
  return (l * 2, t, m)

/-- shapefile.py:401-410: the offsets in the `.shx` file. -/
def shxOffsets (shx : List Byte) : Py (List Int) := do
  let (l, _) ← readBI (shx.drop 24)
  let n := ((l * 2 - 100) / 8).toNat
  (List.range n).mapM (fun i => do
    let (o, _) ← readBI (shx.drop (100 + 8 * i))
    return o * 2)

/-- A `Reader` with its files, `numRecords` (`none` without a `.dbf`), the cached offsets and the position in the `.shp` file. -/
structure Reader (D : Type) where
  shp : List Byte
  shx : Option (List Byte)
  numRecords : Option Nat
  measure : List D
  offsets : List Int := []
  pos : Nat := 100

/-- `0.0 in self.measure` -/
def Reader.noM (r : Reader D) : Bool := decide ((0 : D) ∈ r.measure)

/-- `Reader(name)` as far as the geometry goes. -/
def Reader.new (shp : List Byte) (shx : Option (List Byte)) (numRecords : Option Nat) : Py (Reader D) := do
  let (_, _, m) ← shpHeader shp
  return { shp := shp, shx := shx, numRecords := numRecords, measure := m }

/-- shapefile.py:306-314 `__restrictIndex`. -/
def restrictIndex (numRecords : Option Nat) (i : Int) : Py Int :=
  match numRecords with
  | some (n + 1) =>
    if (i.natAbs : Int) > n then .error .indexError
    else if i < 0 then pyIndex ((List.range (n + 1)).map (fun k : Nat => (k : Int))) i else .ok i
  | _ => .ok i

/-- shapefile.py:400-410: the offsets are read once. -/
def Reader.allOffsets (r : Reader D) (shx : List Byte) : Py (List Int) := if r.offsets = [] then shxOffsets shx else .ok r.offsets

/-- shapefile.py:394-412 `__shapeIndex`: the offset, if there is a `.shx`. -/
def Reader.shapeIndex (r : Reader D) (i : Int) : Py (Reader D × Option Int) :=
  match r.shx with
  | none => .ok (r, none)
  | some shx => do
    let offs ← r.allOffsets shx
    return ({ r with offsets := offs }, some (← pyIndex offs i))

/-- shapefile.py:414-426 `shape(i)`, as a relation because of `iterShapes`. After a failed search `seek(None)` raises `TypeError`,
`seek(0)` is possible. -/
inductive Reader.Shape (r : Reader D) (i : Int) : Py (Reader D × Shapefile.Shape D) → Prop
  | range {e} : restrictIndex r.numRecords i = .error e → Reader.Shape r i (.error e)
  | index {j e} : restrictIndex r.numRecords i = .ok j → r.shapeIndex j = .error e → Reader.Shape r i (.error e)
  | found {j r' o} : restrictIndex r.numRecords i = .ok j → r.shapeIndex j = .ok (r', some o) → 0 < o →
      Reader.Shape r i (do
        let (s, next) ← shapeAt r.noM r.shp o.toNat
        return ({ r' with pos := next }, s))
  | before {j r' o} : restrictIndex r.numRecords i = .ok j → r.shapeIndex j = .ok (r', some o) → o < 0 →
      Reader.Shape r i (.error .valueError)
  | search {j r' o l s} : restrictIndex r.numRecords i = .ok j → r.shapeIndex j = .ok (r', o) → (o = none ∨ o = some 0) →
      Shapes D r.noM r.shp 100 (.ok l) → 0 ≤ j → l[j.toNat]? = some s → Reader.Shape r i (.ok (r', s))
  | missing {j r' l} : restrictIndex r.numRecords i = .ok j → r.shapeIndex j = .ok (r', none) → Shapes D r.noM r.shp 100 (.ok l) →
      (j < 0 ∨ l[j.toNat]? = none) → Reader.Shape r i (.error .typeError)

/-! ### Editor -/

/-- shapefile.py:1066-1078: what matters of an `Editor` for `delete` and for balancing. `names` are the names of the fields. -/
structure Editor (D R : Type) where
  writer : Writer D
  names : List (List Char)
  records : List R
  autoBalance : Bool := true

/-- `del l[i]` -/
def delItem {α : Type} (l : List α) (i : Int) : Py (List α) :=
  let j := if i < 0 then i + l.length else i
  if 0 ≤ j ∧ j < l.length then .ok (l.eraseIdx j.toNat) else .error .indexError

/-- shapefile.py:1085-1112 `delete(shape=i)`, the other arguments `None`: 0 counts as not given, and then no branch is taken. -/
def Editor.delete {R : Type} (e : Editor D R) (i : Int) : Py (Editor D R) :=
  if i ≠ 0 then do return { e with writer := { e.writer with shapes := ← delItem e.writer.shapes i } } else .ok e

/-- shapefile.py:976-999 `record()` without arguments: no record is added. -/
def Editor.recordNothing {R : Type} (e : Editor D R) : Py (Editor D R) :=
  match e.names with
  | [] => .error .indexError
  | _ :: _ => .ok e

/-- shapefile.py:1167-1174. -/
def Editor.balance {R : Type} (e : Editor D R) : Py (Editor D R) :=
  if e.records.length > e.writer.shapes.length then .ok { e with writer := e.writer.null }
  else if e.records.length < e.writer.shapes.length then e.recordNothing
  else .ok e

/-- shapefile.py:1114-1159 `point(x, y, z, m)` without an address. -/
def Editor.point {R : Type} (e : Editor D R) (x y z m : D) : Py (Editor D R) :=
  let e := { e with writer := e.writer.point x y z m }
  if e.autoBalance then e.balance else .ok e

end

end Shapefile
end Coral
