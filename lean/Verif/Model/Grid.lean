import Verif.Py
import Verif.PyNum
import Verif.Utf8

/-!
# Model of `coral/grid.py`
Integers are exact; real numbers are elements of an ordered field (exact arithmetic). Names, `__repr__` and `__str__`
are left out. `struct` formats: `>B`, `>H`, `>I`, `>Q` are `packU 1/2/4/8`.
-/
namespace Coral

/-- grid.py:24 `SIZE_SPAN` -/
def sizeSpan (size : Nat) : Int := (256 ^ size : Nat)

/-- `bool` used as an integer. -/
def b2i (b : Bool) : Int := if b then 1 else 0

/-- grid.py:26-47, the instance attributes of an `IVar`. `fmt` is used by `encode` and `decode` but never assigned:
`none` is the missing attribute, `some n` a format `'>B'`, `'>H'`, `'>I'` or `'>Q'` of `n` bytes. -/
structure IVar where
  minv : Int
  maxv : Int
  size : Nat
  span : Int
  nullable : Bool
  fmt : Option Nat
  deriving DecidableEq, Repr

namespace IVar

/-- grid.py:34-43: the choice of the number of bytes. -/
def pickSize (delta : Int) (nullable : Bool) : Py Nat :=
  if delta < sizeSpan 1 - b2i nullable then .ok 1
  else if delta < sizeSpan 2 - b2i nullable then .ok 2
  else if delta < sizeSpan 4 - b2i nullable then .ok 4
  else if delta < sizeSpan 8 - b2i nullable then .ok 8
  else .error .valueError

/-- grid.py:28-47 -/
def init (minv maxv : Int) (nullable : Bool) : Py IVar := do
  pyAssert (maxv > minv)
  let size ← pickSize (maxv - minv) nullable
  let span := sizeSpan size
  let span := if nullable then span - 1 else span
  return { minv, maxv, size, span, nullable, fmt := none }

/-- grid.py:58-63 -/
def index (v : IVar) : Option Int → Py Int
  | none => do
    pyAssert v.nullable
    return v.span + 1
  | some x => do
    pyAssert (v.minv ≤ x && x ≤ v.maxv)
    return x - v.minv

/-- grid.py:65-70 -/
def value (v : IVar) (index : Int) : Py (Option Int) :=
  if index = v.span + 1 then do
    pyAssert v.nullable
    return none
  else do
    pyAssert (0 ≤ index && index ≤ v.span)
    return some (v.minv + index)

/-- `self.fmt` -/
def getFmt (v : IVar) : Py Nat := match v.fmt with
  | some n => .ok n
  | none => .error .attributeError

/-- grid.py:72-73; `self.fmt` is evaluated before `self.index(value)`. -/
def encode (v : IVar) (x : Option Int) : Py (List Byte) := do
  let n ← v.getFmt
  packU n (← v.index x)

/-- grid.py:75-76 -/
def decode (v : IVar) (data : List Byte) : Py (Option Int) := do
  let n ← v.getFmt
  v.value (← unpackU n data)

end IVar

section
variable {K : Type} [Field K] [LinearOrder K] [FloorRing K]

/-- grid.py:78-92, the fields of an `FVar`. -/
structure FVar (K : Type) where
  minv : K
  maxv : K
  size : Nat
  delta : K
  span : Int
  nullable : Bool
  deriving DecidableEq

namespace FVar

/-- grid.py:80-92 -/
def init (minv maxv : K) (size : Nat) (nullable : Bool) : Py (FVar K) := do
  pyAssert (maxv > minv)
  pyAssert (size ∈ [1, 2, 4, 8])
  let span := sizeSpan size
  let span := if nullable then span - 1 else span
  return { minv, maxv, size, delta := maxv - minv, span, nullable }

/-- grid.py:103-108 -/
def index (v : FVar K) : Option K → Py Int
  | none => do
    pyAssert v.nullable
    return v.span + 1
  | some x => do
    pyAssert (v.minv ≤ x && x ≤ v.maxv)
    return min (pyRound ((x - v.minv) * (v.span : K) / v.delta)) v.span

/-- grid.py:110-115 -/
def value (v : FVar K) (index : Int) : Py (Option K) :=
  if index = v.span + 1 then do
    pyAssert v.nullable
    return none
  else do
    pyAssert (0 ≤ index && index ≤ v.span)
    return some (v.minv + (index : K) * v.delta / (v.span : K))

/-- grid.py:117-118 -/
def encode (v : FVar K) (x : Option K) : Py (List Byte) := do
  packU v.size (← v.index x)

/-- grid.py:120-121 -/
def decode (v : FVar K) (data : List Byte) : Py (Option K) := do
  v.value (← unpackU v.size data)

end FVar
end

/-- grid.py:123-128 -/
structure SVar where
  size : Nat
  nullable : Bool
  deriving DecidableEq, Repr

namespace SVar

/-- grid.py:139-145. A string is the list of its code points. -/
def encode (v : SVar) : Option (List Nat) → Py (List Byte)
  | none => do
    pyAssert v.nullable
    return List.replicate v.size 0xff
  | some s => match utf8Enc s with
    | none => .error .unicodeError
    | some data => do
      pyAssert (data.length ≤ v.size)
      return data ++ List.replicate (v.size - data.length) 0

/-- `s.rstrip('\x00')` -/
def rstrip0 (s : List Nat) : List Nat := (s.reverse.dropWhile (· == 0)).reverse

/-- grid.py:147-151 -/
def decode (v : SVar) (data : List Byte) : Py (Option (List Nat)) :=
  if data = List.replicate v.size 0xff then do
    pyAssert v.nullable
    return none
  else match utf8Dec data with
    | none => .error .unicodeError
    | some s => .ok (some (rstrip0 s))

end SVar

/-- A column of a row: grid.py:155-157 accepts any of the three kinds. -/
inductive Column (K : Type) where
  | ivar (v : IVar) | fvar (v : FVar K) | svar (v : SVar)

/-- A Python value stored in a grid. -/
inductive GVal (K : Type) where
  | none | int (i : Int) | num (x : K) | str (s : List Nat)
  deriving DecidableEq

section
variable {K : Type} [Field K] [LinearOrder K] [FloorRing K]

namespace Column

/-- the attribute `size` of any column -/
def size : Column K → Nat
  | .ivar v => v.size
  | .fvar v => v.size
  | .svar v => v.size

/-- `f.encode(v)` by kind of column. Comparing a string with numbers raises `TypeError`, a number has no `encode`
(`AttributeError`). An integer stored in a real column is that real number; a non-integer in an integer column fails in
`struct.pack` (all these are lumped as `TypeError`). -/
def encode : Column K → GVal K → Py (List Byte)
  | .ivar v, .none => v.encode none
  | .ivar v, .int i => v.encode (some i)
  | .ivar v, _ => do let _ ← v.getFmt; .error .typeError
  | .fvar v, .none => v.encode none
  | .fvar v, .int i => v.encode (some (i : K))
  | .fvar v, .num x => v.encode (some x)
  | .fvar _, .str _ => .error .typeError
  | .svar v, .none => v.encode none
  | .svar v, .str s => v.encode (some s)
  | .svar _, _ => .error .attributeError

/-- `f.decode(d)` by kind of column -/
def decode : Column K → List Byte → Py (GVal K)
  | .ivar v, d => do return (match ← v.decode d with | none => .none | some i => .int i)
  | .fvar v, d => do return (match ← v.decode d with | none => .none | some x => .num x)
  | .svar v, d => do return (match ← v.decode d with | none => .none | some s => .str s)

end Column

/-- grid.py:155-157 `GRow.size` -/
def growSize (fields : List (Column K)) : Nat := (fields.map Column.size).sum

/-- grid.py:163: the generator inside `join`, which stops at the shorter of the two sequences. -/
def growJoin : List (Column K) → List (GVal K) → Py (List Byte)
  | f :: fs, v :: vs => do
    let d ← f.encode v
    let ds ← growJoin fs vs
    return d ++ ds
  | _, _ => .ok []

/-- grid.py:162-165 -/
def growEncode (fields : List (Column K)) (values : List (GVal K)) : Py (List Byte) := do
  let data ← growJoin fields values
  pyAssert (data.length == growSize fields)
  return data

/-- grid.py:170-173: the loop, at a given offset. -/
def growLoop (data : List Byte) (offset : Nat) : List (Column K) → Py (List (GVal K))
  | [] => .ok []
  | f :: fs => do
    let v ← f.decode ((data.drop offset).take f.size)
    let vs ← growLoop data (offset + f.size) fs
    return v :: vs

/-- grid.py:167-174 -/
def growDecode (fields : List (Column K)) (data : List Byte) : Py (List (GVal K)) := growLoop data 0 fields

end
end Coral
