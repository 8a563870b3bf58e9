import Verif.PyDec
import Verif.Utf8
import Verif.Model.Shapefile

/-!
# Model of `coral/shapefile.py`: the `.dbf` file

Python 3, encoding utf-8. Text has no surrogates. Attribute values are texts and integers; `str.upper` is modelled for ASCII letters.
`float(value)` on bytes is a parameter. What is left in a file when writing raises is not modelled.
-/
namespace Coral
namespace Dbf

open Shapefile (restrictIndex)

/-- `s.encode("utf-8")` -/
def enc (s : Str) : List Byte := (s.map Char.toNat).flatMap utf8Enc1

/-- `bs.decode("utf-8")` -/
def dec (bs : List Byte) : Py Str :=
  match utf8Dec bs with
  | some s => .ok (s.map Char.ofNat)
  | none => .error .unicodeError

/-- A field descriptor: name, type, `int(size)` and number of decimals. -/
structure Field where
  name : Str
  type : Str
  size : Int
  deci : Int
  deriving DecidableEq

/-- `"Deletion"` -/
def deletion : Str := ['D', 'e', 'l', 'e', 't', 'i', 'o', 'n']

/-- `field[0].startswith("Deletion")` -/
def Field.deletes (f : Field) : Bool := deletion.isPrefixOf f.name

/-- shapefile.py:485 -/
def deletionField : Field := { name := deletion ++ ['F', 'l', 'a', 'g'], type := ['C'], size := 1, deci := 0 }

/-- A value given to `record()`. -/
inductive Attr
  | text (s : Str)
  | int (n : Int)
  deriving DecidableEq

/-- `str(value)` -/
def Attr.str : Attr → Str
  | .text s => s
  | .int n => decInt n

/-- A value that `records()` returns. -/
inductive Value (F : Type)
  | text (s : Str)
  | int (n : Int)
  | float (x : F)
  | raw (bs : List Byte)
  deriving DecidableEq

/-! ### Writing -/

/-- shapefile.py:586-598, the part of a `Writer` that concerns the attributes. -/
structure Writer where
  fields : List Field := []
  records : List (List Attr) := []
  deriving DecidableEq

/-- `c.upper()` for ASCII letters; other characters are taken to stay. -/
def upperChar (c : Char) : Char := if 97 ≤ c.toNat ∧ c.toNat ≤ 122 then Char.ofNat (c.toNat - 32) else c

/-- shapefile.py:972-974 -/
def Writer.field (w : Writer) (name type : Str) (size deci : Int) : Writer :=
  { w with fields := w.fields ++ [{ name := name, type := type, size := size, deci := deci }] }

/-- shapefile.py:976-999 `record(*values)` with at least one value: too few raise `IndexError`, more than there are fields are ignored. -/
def Writer.record (w : Writer) (values : List Attr) : Py Writer :=
  match w.fields with
  | [] => .error .indexError
  | f :: fs =>
    let count := if f.deletes then fs.length else fs.length + 1
    if values.length < count then .error .indexError
    else if values.take count = [] then .ok w
    else .ok { w with records := w.records ++ [values.take count] }

/-- shapefile.py:764-766: elements are removed while the loop runs over the list; `fuel` is at least the number of rounds left. -/
def dropDeletion : Nat → Nat → List Field → List Field
  | 0, _, fields => fields
  | fuel + 1, i, fields =>
    match fields[i]? with
    | none => fields
    | some f => dropDeletion fuel (i + 1) (if f.deletes then fields.erase f else fields)

/-- `pack("<B")`, `pack("<H")`, `pack("<L")`: unsigned, least significant byte first. -/
def packL (n : Nat) (v : Int) : Py (List Byte) := do return (← packU n v).reverse

/-- `name.replace(a, b)` for single bytes. -/
def replaceByte (a b : Byte) (bs : List Byte) : List Byte := bs.map (fun x => if x = a then b else x)

/-- shapefile.py:777-779 and the `11s` of 782. -/
def packName (name : Str) : List Byte :=
  let bs := replaceByte 32 95 (enc name)
  (replaceByte 32 0 (bs ++ List.replicate (11 - bs.length) 32)).take 11

/-- The `c` of shapefile.py:782: one byte, or `struct.error`. -/
def packType (type : Str) : Py (List Byte) :=
  match enc type with
  | [x] => .ok [x]
  | _ => .error .structError

/-- shapefile.py:776-783. -/
def descriptor (f : Field) : Py (List Byte) := do
  let t ← packType f.type
  let size ← packL 1 f.size
  let deci ← packL 1 f.deci
  return packName f.name ++ t ++ List.replicate 4 0 ++ size ++ deci ++ List.replicate 14 0

/-- shapefile.py:756-785 `__dbfHeader`, on fields without deletion flags; `year` counts from 1900. -/
def header (year month day : Int) (fields : List Field) (numRecs : Nat) : Py (List Byte) := do
  let v ← packL 1 3
  let y ← packL 1 year
  let m ← packL 1 month
  let d ← packL 1 day
  let n ← packL 4 numRecs
  let h ← packL 2 (fields.length * 32 + 33 : Nat)
  let r ← packL 2 ((fields.map Field.size).sum + 1)
  let ds ← fields.mapM descriptor
  return v ++ y ++ m ++ d ++ n ++ h ++ r ++ List.replicate 20 0 ++ ds.flatten ++ [13]

/-- shapefile.py:913-920: the text of a value. The size is not negative here, it has been packed. -/
def layout (f : Field) (s : Str) : Py Str :=
  let size := f.size.toNat
  if f.type.map upperChar = ['N'] then .ok (rjust size s)
  else if f.type.map upperChar = ['L'] then
    match s with
    | c :: _ => .ok [upperChar c]
    | [] => .error .indexError
  else .ok (ljust size (s.take size))

/-- shapefile.py:912-923: one value. -/
def writeValue (f : Field) (v : Attr) : Py (List Byte) := do
  let s ← layout f v.str
  pyAssert (decide ((s.length : Int) = f.size))
  return enc s

/-- shapefile.py:910-911 -/
def writeFlag (fields : List Field) : Py (List Byte) :=
  match fields with
  | [] => .error .indexError
  | f :: _ => .ok (if f.deletes then [] else [32])

/-- shapefile.py:909-923: one record. -/
def writeRecord (fields : List Field) (record : List Attr) : Py (List Byte) := do
  let flag ← writeFlag fields
  let vs ← (fields.zip record).mapM (fun p => writeValue p.1 p.2)
  return flag ++ vs.flatten

/-- shapefile.py:1028-1034 `saveDbf`: the file. -/
def Writer.saveDbf (w : Writer) (year month day : Int) : Py (Writer × List Byte) := do
  let fields := dropDeletion w.fields.length 0 w.fields
  let h ← header year month day fields w.records.length
  let rs ← w.records.mapM (writeRecord fields)
  return ({ w with fields := fields }, h ++ rs.flatten)

/-! ### Reading -/

/-- The attribute part of a `Reader`. -/
structure Reader where
  data : List Byte
  pos : Nat := 0
  numRecords : Nat := 0
  headerLength : Nat := 0
  fields : List Field := []
  deriving DecidableEq

/-- `dbf.read(n)` -/
def Reader.read (r : Reader) (n : Nat) : List Byte × Reader :=
  let bs := (r.data.drop r.pos).take n
  (bs, { r with pos := r.pos + bs.length })

/-- shapefile.py:453-461 `__dbfHeaderLength`. -/
def Reader.length (r : Reader) : Py Reader :=
  if r.headerLength = 0 then
    let (bs, r) := r.read 32
    if bs.length = 32 then .ok { r with numRecords := leVal ((bs.drop 4).take 4), headerLength := leVal ((bs.drop 8).take 2) }
    else .error .structError
  else .ok r

/-- shapefile.py:474-479: the name ends at the first zero byte, or before the last byte. -/
def cutName (bs : List Byte) : List Byte := if 0 ∈ bs then bs.takeWhile (· ≠ 0) else bs.dropLast

/-- shapefile.py:471-482: one field descriptor. -/
def Reader.readField (r : Reader) : Py (Field × Reader) :=
  let (bs, r) := r.read 32
  if bs.length = 32 then do
    let name ← dec (cutName (bs.take 11))
    let type ← dec ((bs.drop 11).take 1)
    return ({ name := lstrip name, type := type, size := ((bs.drop 16).headD 0 : Nat), deci := ((bs.drop 17).headD 0 : Nat) }, r)
  else .error .structError

/-- shapefile.py:470-482, the loop. -/
def Reader.readFields : Nat → Reader → Py (List Field × Reader)
  | 0, r => .ok ([], r)
  | n + 1, r => do
    let (f, r) ← r.readField
    let (fs, r) ← readFields n r
    return (f :: fs, r)

/-- shapefile.py:463-485 `__dbfHeader`. -/
def Reader.header (r : Reader) : Py Reader := do
  let r ← r.length
  let (fs, r) ← Reader.readFields (((r.headerLength : Int) - 33) / 32).toNat r
  let (t, r) := r.read 1
  pyAssert (decide (t = [13]))
  return { r with fields := deletionField :: (r.fields ++ fs) }

/-- shapefile.py:228-293 `Reader(...)` as far as the attributes go. After this there is always a field, so `__getFileObj` does nothing. -/
def Reader.new (data : List Byte) : Py Reader := Reader.header { data := data }

/-- shapefile.py:489-490, 537-538, 547-548: the header is read again if there are no records. -/
def Reader.again (r : Reader) : Py Reader := if r.numRecords = 0 then r.header else .ok r

/-- shapefile.py:487-493: the size of a record (sizes are not negative here). -/
def Reader.recSize (r : Reader) : Nat := (r.fields.map (fun f => f.size.toNat)).sum

/-- `unpack(recFmt[0], ...)` on bytes of the right number. -/
def chunks : List Nat → List Byte → List (List Byte)
  | [], _ => []
  | n :: ns, bs => bs.take n :: chunks ns (bs.drop n)

/-- White space for `bytes.strip`. -/
def byteSpace (b : Byte) : Bool := b = 32 || (9 ≤ b && b ≤ 13)

/-- `value.strip()` for bytes -/
def bstrip (bs : List Byte) : List Byte := ((bs.dropWhile byteSpace).reverse.dropWhile byteSpace).reverse

/-- `int(value)` for bytes without outer white space (digit groups with `_` are not considered). -/
def intOfBytes (bs : List Byte) : Py Int :=
  match readInt (bs.map Char.ofNat) with
  | some n => .ok n
  | none => .error .valueError

section
variable {F : Type} (pyFloat : List Byte → Py F)

/-- shapefile.py:512-518: a number. -/
def parseNumber (deci : Int) (value : List Byte) : Py (Value F) :=
  let value := bstrip (value.filter (· ≠ 0))
  if value = [] then .ok (.int 0)
  else if deci ≠ 0 then do return .float (← pyFloat value)
  else do return .int (← intOfBytes value)

/-- shapefile.py:508-531: one value; the comparisons of the type with bytes (519, 525) are never true. -/
def parseValue (f : Field) (value : List Byte) : Py (Value F) :=
  if bstrip value = [] then .ok (.raw value)
  else if f.type = ['N'] then parseNumber pyFloat f.deci value
  else do return .text (strip (← dec value))

/-- shapefile.py:503-532: the loop over the fields. -/
def parseValues : List Field → List (List Byte) → Py (List (Value F))
  | f :: fs, v :: vs =>
    if f.name = deletionField.name then parseValues fs vs
    else do
      let x ← parseValue pyFloat f v
      return x :: (← parseValues fs vs)
  | _, _ => .ok []

/-- shapefile.py:499-532: from the bytes of a record; `none` for a deleted one. -/
def parse (fields : List Field) (bs : List Byte) : Py (Option (List (Value F))) :=
  let contents := chunks (fields.map (fun f => f.size.toNat)) bs
  if contents.head? ≠ some [32] then .ok none
  else do return some (← parseValues pyFloat fields contents)

/-- shapefile.py:495-532 `__record`. -/
def Reader.next (r : Reader) : Py (Reader × Option (List (Value F))) := do
  let r ← r.again
  let (bs, r') := r.read r.recSize
  if bs.length = r.recSize then return (r', ← parse pyFloat r.fields bs) else .error .structError

/-- shapefile.py:552-555: the loop of `records`; deleted and empty records are left out. -/
def Reader.loop : Nat → Reader → Py (Reader × List (List (Value F)))
  | 0, r => .ok (r, [])
  | n + 1, r => do
    let (r, x) ← r.next pyFloat
    let (r, xs) ← Reader.loop n r
    return (r, match x with
      | some (v :: vs) => (v :: vs) :: xs
      | _ => xs)

/-- shapefile.py:545-556 `records`. -/
def Reader.records (r : Reader) : Py (Reader × List (List (Value F))) := do
  let r ← r.again
  let r ← r.length
  Reader.loop pyFloat r.numRecords { r with pos := r.headerLength }

/-- shapefile.py:534-543 `record(i)`: seeking before the start raises `OSError` (an `.exception` here). -/
def Reader.record (r : Reader) (i : Int) : Py (Reader × Option (List (Value F))) := do
  let r ← r.again
  let i ← restrictIndex (some r.numRecords) i
  let r ← r.again
  let size := r.recSize
  let r ← Reader.length { r with pos := 0 }
  let p := (r.headerLength : Int) + i * size
  if 0 ≤ p then Reader.next pyFloat { r with pos := p.toNat } else .error .exception

/-- shapefile.py:576-581 `shapeRecords`, given what `shapes()` returns. -/
def Reader.shapeRecords {S : Type} (r : Reader) (shapes : Py (List S)) : Py (List (S × List (Value F))) := do
  let ss ← shapes
  let (_, rs) ← r.records pyFloat
  return ss.zip rs

end

end Dbf
end Coral
