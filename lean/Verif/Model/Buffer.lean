import Verif.Py

/-!
# Model of `coral.coord.Buffer` (coral/coord.py lines 38-95)
-/
namespace Coral

/-- coord.py:40-46, the fields `n, buf, s, e`; `_m1` and `_m2` are `n - 1` and `2n - 1`. The slots hold `None` or an
object. -/
structure Buffer (α : Type) where
  n : Nat
  buf : List (Option α)
  s : Nat
  e : Nat
  deriving DecidableEq, Repr

namespace Buffer
variable {α : Type}

/-- coord.py:45 -/
def m1 (b : Buffer α) : Nat := b.n - 1
/-- coord.py:46. For `n = 0` Python has `_m1 = _m2 = -1` instead; they are never used then, as every `Buffer(0)` is
both empty and full, so that all operations that use a mask raise first. -/
def m2 (b : Buffer α) : Nat := (b.n <<< 1) - 1

/-- coord.py:40-46. `n & (n - 1)` is 0 for `n = 0` too. Simplification: negative `n` (always `AssertionError`, since
`n & (n-1)` is then negative) is not representable. -/
def init (n : Nat) : Py (Buffer α) := do
  pyAssert (n &&& (n - 1) == 0)
  return ⟨n, List.replicate n none, 0, 0⟩

/-- coord.py:63-64 -/
def inc (b : Buffer α) (i : Nat) : Nat := (i + 1) &&& b.m2

/-- coord.py:66-67; in Python `-1 & m = m`. -/
def dec (b : Buffer α) (i : Nat) : Nat := if i = 0 then b.m2 else (i - 1) &&& b.m2

/-- coord.py:69-70 -/
def isempty (b : Buffer α) : Bool := b.e == b.s

/-- coord.py:72-73 (`==` binds weaker than `^` in Python) -/
def isfull (b : Buffer α) : Bool := b.e == b.s ^^^ b.n

/-- coord.py:75-78 -/
def push (b : Buffer α) (o : α) : Py (Buffer α) := do
  pyAssert (!b.isfull)
  let buf ← pySetItem b.buf (b.e &&& b.m1 : Nat) (some o)
  return { b with buf := buf, e := b.inc b.e }

/-- coord.py:80-84. The object returned is `none` only if an empty slot is read. -/
def pop (b : Buffer α) : Py (Option α × Buffer α) := do
  pyAssert (!b.isempty)
  let b := { b with e := b.dec b.e }
  let o ← pyIndex b.buf (b.e &&& b.m1 : Nat)
  return (o, b)

/-- coord.py:86-89 -/
def peek (b : Buffer α) : Py (Option α) := do
  pyAssert (!b.isempty)
  pyIndex b.buf (b.dec b.e &&& b.m1 : Nat)

/-- coord.py:91-95 -/
def shift (b : Buffer α) : Py (Option α × Buffer α) := do
  pyAssert (!b.isempty)
  let o ← pyIndex b.buf (b.s &&& b.m1 : Nat)
  return (o, { b with s := b.inc b.s })

end Buffer

/-- A method call on a buffer. -/
inductive BufOp (α : Type) where
  | push (o : α) | pop | peek | shift | isempty | isfull

/-- What a caller observes. -/
inductive BufResp (α : Type) where
  | none | val (o : Option α) | bool (b : Bool) | err (e : PyErr)
  deriving DecidableEq, Repr

/-- Performing one call: the observable answer and the new state. A method that raises leaves `self` unchanged up to
the raise; all raises come before the first assignment. -/
def Buffer.exec {α : Type} (b : Buffer α) : BufOp α → BufResp α × Buffer α
  | .push o => match b.push o with
    | .ok b' => (.none, b')
    | .error e => (.err e, b)
  | .pop => match b.pop with
    | .ok (o, b') => (.val o, b')
    | .error e => (.err e, b)
  | .peek => match b.peek with
    | .ok o => (.val o, b)
    | .error e => (.err e, b)
  | .shift => match b.shift with
    | .ok (o, b') => (.val o, b')
    | .error e => (.err e, b)
  | .isempty => (.bool b.isempty, b)
  | .isfull => (.bool b.isfull, b)

/-- A sequence of calls on one buffer. -/
def Buffer.run {α : Type} (b : Buffer α) : List (BufOp α) → List (BufResp α)
  | [] => []
  | op :: ops => let (r, b') := b.exec op; r :: b'.run ops

end Coral
