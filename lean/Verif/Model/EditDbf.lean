import Verif.Model.Dbf

/-! # Model of opening a file in an `Editor` (`coral/shapefile.py`), the attributes -/
namespace Coral
namespace Dbf

/-- `repr` of a byte that is white space. -/
def reprSpace (b : Byte) : Str :=
  if b = 9 then ['\\', 't'] else if b = 10 then ['\\', 'n'] else if b = 13 then ['\\', 'r']
  else if b = 11 then ['\\', 'x', '0', 'b'] else if b = 12 then ['\\', 'x', '0', 'c'] else [' ']

/-- `str(value)` for a `bytes` object of white space; `records()` returns no other ones. -/
def reprBlank (bs : List Byte) : Str := ['b', '\''] ++ bs.flatMap reprSpace ++ ['\'']

/-- A value from `records()` as a value to write, which is its `str()`; that of a float is a parameter. -/
def Value.attr {F : Type} (floatStr : F → Str) : Value F → Attr
  | .text s => .text s
  | .int n => .int n
  | .float x => .text (floatStr x)
  | .raw bs => .text (reprBlank bs)

/-- shapefile.py:1074-1078 `Editor(name)` for a file that is there: the fields and the records of the reader (the list of fields is the one that
`records()` may add to). -/
def edit {F : Type} (pyFloat : List Byte → Py F) (floatStr : F → Str) (data : List Byte) : Py Writer := do
  let r ← Reader.new data
  let (r, rows) ← r.records pyFloat
  return { fields := r.fields, records := rows.map (fun row => row.map (Value.attr floatStr)) }

end Dbf
end Coral
