import Verif.Model.Dbf

/-!
# Attributes in an encoding of one byte for each character

`Writer(encoding=...)` and `Reader(encoding=...)` (shapefile.py:62-90, 264-268, 586-604) with encodings such as `latin-1` or `cp1252`. Of the header the
names of the fields are modelled; the rest is ASCII, which these encodings write as utf-8 does, so it is that of `Verif/Model/Dbf.lean`.
-/
namespace Coral
namespace Dbf

/-- An encoding with one byte for each character that it has, among them the ASCII characters. -/
structure Codec where
  enc1 : Char → Option Byte
  dec1 : Byte → Option Char
  back : ∀ {c b}, enc1 c = some b → dec1 b = some c
  ascii : ∀ {c}, c.toNat < 128 → enc1 c = some c.toNat

/-- shapefile.py:62-73 `b(v, encoding)` for a text; a character that is missing in the encoding raises `UnicodeEncodeError`. -/
def Codec.b (K : Codec) : Str → Py (List Byte)
  | [] => .ok []
  | c :: s => match K.enc1 c with
    | some x => do return x :: (← K.b s)
    | none => .error .unicodeError

/-- shapefile.py:77-88 `u(v, encoding)` for bytes. -/
def Codec.u (K : Codec) : List Byte → Py Str
  | [] => .ok []
  | x :: bs => match K.dec1 x with
    | some c => do return c :: (← K.u bs)
    | none => .error .unicodeError

/-- shapefile.py:912-923: one value. -/
def writeValueIn (K : Codec) (f : Field) (v : Attr) : Py (List Byte) := do
  let s ← layout f v.str
  pyAssert (decide ((s.length : Int) = f.size))
  K.b s

/-- shapefile.py:909-923: one record. -/
def writeRecordIn (K : Codec) (fields : List Field) (record : List Attr) : Py (List Byte) := do
  let flag ← writeFlag fields
  let vs ← (fields.zip record).mapM (fun p => writeValueIn K p.1 p.2)
  return flag ++ vs.flatten

/-- shapefile.py:906-923 `__dbfRecords`: what follows the header. -/
def writeRecordsIn (K : Codec) (fields : List Field) (records : List (List Attr)) : Py (List Byte) := do
  let rs ← records.mapM (writeRecordIn K fields)
  return rs.flatten

/-- shapefile.py:777-779 and the `11s` of 782: the name of a field in the header. -/
def packNameIn (K : Codec) (name : Str) : Py (List Byte) := do
  let bs ← K.b name
  let bs := replaceByte 32 95 bs
  return (replaceByte 32 0 (bs ++ List.replicate (11 - bs.length) 32)).take 11

/-- shapefile.py:474-480: the name that the reader makes of it. -/
def readNameIn (K : Codec) (bs : List Byte) : Py Str := do return lstrip (← K.u (cutName bs))

section
variable {F : Type} (pyFloat : List Byte → Py F)

/-- shapefile.py:508-531: one value. -/
def parseValueIn (K : Codec) (f : Field) (value : List Byte) : Py (Value F) :=
  if bstrip value = [] then .ok (.raw value)
  else if f.type = ['N'] then parseNumber pyFloat f.deci value
  else do return .text (strip (← K.u value))

/-- shapefile.py:503-532: the loop over the fields. -/
def parseValuesIn (K : Codec) : List Field → List (List Byte) → Py (List (Value F))
  | f :: fs, v :: vs =>
    if f.name = deletionField.name then parseValuesIn K fs vs
    else do
      let x ← parseValueIn pyFloat K f v
      return x :: (← parseValuesIn K fs vs)
  | _, _ => .ok []

/-- shapefile.py:499-532: from the bytes of a record; `none` for a deleted one. -/
def parseIn (K : Codec) (fields : List Field) (bs : List Byte) : Py (Option (List (Value F))) :=
  let contents := chunks (fields.map (fun f => f.size.toNat)) bs
  if contents.head? ≠ some [32] then .ok none
  else do return some (← parseValuesIn pyFloat K fields contents)

/-- shapefile.py:495-498, 552-556: the loop of `records` on what follows the header; deleted and empty records are left out. -/
def recordsIn (K : Codec) (fields : List Field) : Nat → List Byte → Py (List (List (Value F)))
  | 0, _ => .ok []
  | n + 1, bs =>
    let size := (fields.map (fun f => f.size.toNat)).sum
    if (bs.take size).length = size then do
      let x ← parseIn pyFloat K fields (bs.take size)
      let xs ← recordsIn K fields n (bs.drop size)
      return match x with
        | some (v :: vs) => (v :: vs) :: xs
        | _ => xs
    else .error .structError

end

end Dbf
end Coral
