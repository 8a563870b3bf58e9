import Verif.PyStr
import Verif.Model.Coord

/-!
# Model of `coral/table.py`

Cells and field names are strings. `okName` stands for the test by which `collections.namedtuple` accepts a field name (an
identifier, no keyword, no leading underscore). Separator and comment mark are single characters. Files are modelled by
their text; `codecs` readers iterate over the lines as `str.splitlines` finds them.
-/
namespace Coral
namespace Table

/-- A named tuple. -/
structure Row where
  fields : List Str
  values : List Str
  deriving DecidableEq

/-- `row._asdict()` -/
def Row.asdict (r : Row) : List (Str × Str) := r.fields.zip r.values

/-- `d[k]` on a dictionary. -/
def dictGet (d : List (Str × Str)) (k : Str) : Py Str :=
  match d.lookup k with
  | some v => .ok v
  | none => .error .keyError

/-- `row._asdict()[k]` -/
def Row.get (r : Row) (k : Str) : Py Str := dictGet r.asdict k

/-- `collections.namedtuple("Row", keys)`: `ValueError` for bad or repeated names. -/
def mkClass (okName : Str → Bool) (keys : List Str) : Py Unit :=
  if keys.all okName && decide keys.Nodup then .ok () else .error .valueError

/-- `Row(*values)` for the class with these keys. -/
def mkRow (keys values : List Str) : Py Row :=
  if values.length = keys.length then .ok ⟨keys, values⟩ else .error .typeError

/-- `table[0]._fields` -/
def fieldsOf (t : List Row) : Py (List Str) :=
  match t with
  | [] => .error .indexError
  | r :: _ => .ok r.fields

/-! ### `join` (table.py:24-42) -/

/-- `getattr(r, key, "")`, for names that are not attributes of tuples. -/
def getattrD (r : Row) (key : Str) : Str := (r.asdict.lookup key).getD []

/-- table.py:34-40: the dictionary `d` at the end of the loop. Only lookups follow, so an update is put in front. -/
def joinDict (pivots : List Str) (t2 : List Row) (r1 : Row) : List (Str × Str) :=
  let id1 := pivots.map (getattrD r1)
  match t2.find? (fun r2 => decide (id1 = pivots.map (getattrD r2))) with
  | some r2 => r2.asdict ++ r1.asdict
  | none => r1.asdict

/-- table.py:24-42. `order` stands for the order in which a set is listed (28, 30). -/
def join (okName : Str → Bool) (order : List Str → List Str) (t1 t2 : List Row) (pivots keys : Option (List Str) := none) :
    Py (List Row) := do
  let keys1 ← fieldsOf t1
  let keys2 ← fieldsOf t2
  let pivots := pivots.getD (order (keys1.filter (fun k => decide (k ∈ keys2))))
  let keys := keys.getD (order (keys1 ++ keys2.filter (fun k => decide (k ∉ keys1))))
  mkClass okName keys
  t1.mapM (fun r1 => mkRow keys (keys.map (fun k => ((joinDict pivots t2 r1).lookup k).getD [])))

/-! ### Selecting rows (table.py:44-62) -/

/-- table.py:44-47 -/
def getone (t : List Row) (key query : Str) : Py (Option Row) :=
  match t with
  | [] => .ok none
  | r :: t => do
    let v ← r.get key
    if v = query then return some r else getone t key query

/-- table.py:49-52 -/
def getall (t : List Row) (key query : Str) : Gen Row :=
  match t with
  | [] => ([], none)
  | r :: t =>
    match r.get key with
    | .error e => .raise e
    | .ok v => if v = query then .yields [r] (getall t key query) else getall t key query

/-- `d[k] = v` on a dictionary, which keeps the order of insertion. -/
def dictSet (d : List (Str × Row)) (k : Str) (v : Row) : List (Str × Row) :=
  match d with
  | [] => [(k, v)]
  | (k', v') :: d => if k' = k then (k', v) :: d else (k', v') :: dictSet d k v

/-- table.py:54-62 -/
def indexby (okName : Str → Bool) (t : List Row) (key : Str) : Py (List (Str × Row)) := do
  let fields ← fieldsOf t
  let keys := fields.filter (fun k => decide (k ≠ key))
  mkClass okName keys
  t.foldlM (fun indexed row => do
    let vals ← keys.mapM row.get
    let newrow ← mkRow keys vals
    let v ← row.get key
    return dictSet indexed v newrow) []

/-! ### Changing columns (table.py:64-79) -/

/-- One value after another, until one raises. -/
def genMap (f : Row → Py Row) : List Row → Gen Row
  | [] => ([], none)
  | r :: t =>
    match f r with
    | .error e => .raise e
    | .ok r' => .yields [r'] (genMap f t)

/-- table.py:64-71. A generator: nothing happens before the first row is asked for. -/
def addkey (okName : Str → Bool) (t : List Row) (key : Str) (func : Row → Py Str) : Gen Row :=
  match fieldsOf t with
  | .error e => .raise e
  | .ok fields =>
    let newkeys := fields ++ [key]
    match mkClass okName newkeys with
    | .error e => .raise e
    | .ok () => genMap (fun row => do
      let v ← func row
      let d := (key, v) :: row.asdict
      let vals ← newkeys.mapM (dictGet d)
      mkRow newkeys vals) t

/-- table.py:73-79 -/
def delkeys (okName : Str → Bool) (t : List Row) (del : List Str) : Gen Row :=
  match fieldsOf t with
  | .error e => .raise e
  | .ok fields =>
    let newkeys := fields.filter (fun k => decide (k ∉ del))
    match mkClass okName newkeys with
    | .error e => .raise e
    | .ok () => genMap (fun row => do
      let vals ← newkeys.mapM row.get
      mkRow newkeys vals) t

/-! ### Files (table.py:81-107) -/

/-- `line.split(comm)[0].strip()` -/
def cut (comm : Char) (line : Str) : Str := strip ((pySplit comm line).headD [])

/-- table.py:84-86: the first line with something in it, and the lines after it. At the end of the file `readline` returns
"" for ever. -/
def header (comm : Char) : List Str → Res (Str × List Str)
  | [] => .hang
  | line :: lines => if cut comm line = [] then header comm lines else .ok (cut comm line, lines)

/-- table.py:92-98 -/
def readRows (keys : List Str) (indexes : List Nat) (sep comm : Char) : List Str → Py (List Row)
  | [] => .ok []
  | line :: lines =>
    if cut comm line = [] then readRows keys indexes sep comm lines
    else do
      let fvalues := pySplit sep (cut comm line)
      let values ← indexes.mapM (fun (i : Nat) => pyIndex fvalues (i : Int))
      let row ← mkRow keys values
      let rows ← readRows keys indexes sep comm lines
      return row :: rows

/-- table.py:81-99 -/
def readfile (okName : Str → Bool) (text : Str) (keys : Option (List Str) := none) (sep : Char := ',') (comm : Char := '#') :
    Res (List Row) := do
  let (line, lines) ← header comm (splitlines text)
  let fkeys := pySplit sep line
  let keys := keys.getD fkeys
  let indexes := (List.range fkeys.length).filter (fun (i : Nat) => decide (∃ k ∈ keys, fkeys[i]? = some k))
  .lift (mkClass okName keys)
  .lift (readRows keys indexes sep comm lines)

/-- table.py:101-107: the text written. -/
def writefile (t : List Row) (keys : Option (List Str) := none) (sep : Char := ',') : Py Str := do
  let keys ← match keys with
    | some k => pure k
    | none => fieldsOf t
  let rows ← t.mapM (fun row => do
    let vals ← keys.mapM row.get
    return pyJoin sep vals ++ ['\n'])
  return pyJoin sep keys ++ ['\n'] ++ rows.flatten

end Table
end Coral
