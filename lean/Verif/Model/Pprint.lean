import Verif.Model.Table
import Verif.PyDec

/-!
# Model of `pprint`, `coral/table.py`
-/
namespace Coral
namespace Table

/-- `sep.join(parts)` -/
def joinWith (sep : Str) : List Str → Str
  | [] => []
  | [s] => s
  | s :: t :: l => s ++ sep ++ joinWith sep (t :: l)

/-- `max(l, key=len)`: the first of the longest ones. -/
def longest : Str → List Str → Str
  | m, [] => m
  | m, s :: l => longest (if m.length < s.length then s else m) l

/-- table.py:113-114: the width of one column. -/
def colWidth (t : List Row) (k : Str) : Py Nat := do
  let cells ← t.mapM (fun x => x.get k)
  match cells ++ [k] with
  | [] => .error .valueError
  | s :: l => return (longest s l).length

/-- table.py:115-116, 118, 121: `pattern % cells`, one `%-<n>s` for each column. -/
def formatLine (lens : List Nat) (cells : List Str) : Str := joinWith " | ".toList (List.zipWith ljust lens cells)

/-- table.py:109-121: the lines that are printed. -/
def pprint (t : List Row) (keys : Option (List Str) := none) : Py (List Str) := do
  let keys ← match keys with
    | some k => pure k
    | none => fieldsOf t
  let lens ← keys.mapM (colWidth t)
  let separator := joinWith "-+-".toList (lens.map fun n => List.replicate n '-')
  let lines ← t.mapM (fun line => do
    let cells ← keys.mapM line.get
    return formatLine lens cells)
  return formatLine lens keys :: separator :: lines

end Table
end Coral
