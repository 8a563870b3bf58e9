import Verif.Model.Buffer
import Mathlib.Algebra.Order.Floor.Ring
import Mathlib.Algebra.Order.Field.Basic

/-!
# Model of the exact-arithmetic part of `coral/coord.py`
`nearest` (36), `bearing2cardinal` (221-230), `bearing2hours` (232-234), `collinear` (236-241),
`sqr_fit` (243-247), `open_no_slit` (249-267), `closed_no_slit` (269-301), `simplify` (303-308).

Numbers are elements of an ordered field with a floor function (exact arithmetic, no rounding, no NaN).
Generators are modelled by the list of yielded values and the exception that ended them, if any.
-/
namespace Coral

section
variable {K : Type} [Field K] [LinearOrder K] [FloorRing K]

/-- Python's `int(x)` on a number: truncation toward zero. -/
def pyTrunc (x : K) : Int := if 0 ≤ x then ⌊x⌋ else ⌈x⌉

/-- `math.copysign(m, x)` for `m > 0` (the zero of exact arithmetic counts as positive). -/
def copysign (m x : K) : K := if 0 ≤ x then m else -m

/-- coord.py:36 (and raster.py:30): `int(x + math.copysign(0.5, x))`. -/
def nearest (x : K) : Int := pyTrunc (x + copysign (1 / 2) x)

/-- Python's float `x % m` for `m > 0`, in exact arithmetic. -/
def pyFMod (x m : K) : K := x - m * (⌊x / m⌋ : K)

/-- coord.py:222-227 -/
def cardinals : List String :=
  ["N", "NNW", "NW", "WNW", "W", "WSW", "SW", "SSW", "S", "SSE", "SE", "ESE", "E", "ENE", "NE", "NNE"]

/-- coord.py:221-230 -/
def bearing2cardinal (b : K) : Py String :=
  let b := pyFMod (b + 360) 360
  let index := 2 * b / 45
  pyIndex cardinals (nearest index % 16)

/-- coord.py:232-234 -/
def bearing2hours (b : K) : K := 12 - pyFMod (b + 360) 360 / 30

/-- coord.py:243-247: a generator over the points; a zero scale raises at the first point. -/
def sqrFit (m : K) : List (K × K) → List (Int × Int) × Option PyErr
  | [] => ([], none)
  | (x, y) :: s =>
    if m = 0 then ([], some .zeroDivisionError)
    else
      let r := sqrFit m s
      ((nearest (x / m), nearest (y / m)) :: r.1, r.2)

end

/-- coord.py:236-241 -/
def collinear {R : Type} [Ring R] [DecidableEq R] (a b c : R × R) : Bool :=
  (a.1 - c.1) * (b.2 - a.2) == (a.1 - b.1) * (c.2 - a.2)

/-- A point of the integer grid. -/
abbrev Pt := Int × Int

/-- What a generator produced before it returned (`none`) or raised. -/
abbrev Gen (α : Type) := List α × Option PyErr

/-- The generator raised without yielding more. -/
def Gen.raise {α : Type} (e : PyErr) : Gen α := ([], some e)

/-- Yield some values, then go on. -/
def Gen.yields {α : Type} (l : List α) (g : Gen α) : Gen α := (l ++ g.1, g.2)

/-- coord.py:257-263, the body for a corner `q`: what is yielded, and the buffer afterwards. The objects in the buffer
are points, so reading an empty slot is modelled as a `TypeError` (it never happens for a valid buffer). -/
def cornerStep (b : Buffer Pt) (q : Pt) : Py (List Pt × Buffer Pt) := do
  let top ← if b.isempty then pure none else b.peek
  if !b.isempty && top == some q then
    let (_, b) ← b.pop
    return ([], b)
  else
    let (out, b) ← if b.isfull then do
        let (t, b) ← b.shift
        match t with
        | some t => pure ([t], b)
        | none => throw .typeError
      else pure ([], b)
    let b ← b.push q
    return (out, b)

/-- coord.py:265-266: `while not b.isempty(): yield b.shift()`. The fuel is the number of slots, which bounds the number
of elements (`drain_rep` shows that it suffices). -/
def drain (b : Buffer Pt) : Nat → List Pt
  | 0 => []
  | fuel + 1 =>
    if b.isempty then []
    else match b.shift with
      | .ok (some t, b) => t :: drain b fuel
      | _ => []

/-- coord.py:254-267: the `for r in s` loop and what follows. `err` is the exception that ends the source `s`, which
propagates. -/
def openLoop (b : Buffer Pt) (p q : Pt) (err : Option PyErr) : List Pt → Gen Pt
  | [] => match err with
    | some e => .raise e
    | none => (drain b b.n ++ [q], none)
  | r :: s =>
    if r = q then openLoop b p q err s
    else if !collinear p q r then
      match cornerStep b q with
      | .error e => .raise e
      | .ok (out, b) => .yields out (openLoop b q r err s)
    else openLoop b q r err s

/-- `next(s)` inside a generator: exhaustion raises `StopIteration`, which a generator turns into `RuntimeError`
(Python 3.7 or later); an exception of the source propagates. -/
def nextErr (err : Option PyErr) : PyErr := err.getD .runtimeError

/-- coord.py:249-267 -/
def openNoSlit (src : Gen Pt) (k : Nat) : Gen Pt :=
  match Buffer.init k with
  | .error e => .raise e
  | .ok b => match src with
    | ([], err) => .raise (nextErr err)
    | ([p], err) => .yields [p] (.raise (nextErr err))
    | (p :: q :: s, err) => .yields [p] (openLoop b p q err s)

/-- coord.py:278-288 for the closed case: two buffers. -/
def cornerStep2 (b1 b2 : Buffer Pt) (q : Pt) : Py (List Pt × Buffer Pt × Buffer Pt) := do
  let top ← if b1.isempty then pure none else b1.peek
  if !b1.isempty && top == some q then
    let (_, b1) ← b1.pop
    return ([], b1, b2)
  else
    let (out, b1, b2) ← if b1.isfull then do
        let (t, b1) ← b1.shift
        match t with
        | none => throw .typeError
        | some t =>
          if b2.isfull then pure ([t], b1, b2)
          else do
            let b2 ← b2.push t
            pure ([], b1, b2)
      else pure ([], b1, b2)
    let b1 ← b1.push q
    return (out, b1, b2)

/-- coord.py:290-294: the loop that removes a slit across the seam. -/
def seam (b1 b2 : Buffer Pt) (p q : Pt) : Nat → Buffer Pt × Buffer Pt × Pt × Pt
  | 0 => (b1, b2, p, q)
  | fuel + 1 =>
    if b1.isempty || b2.isempty then (b1, b2, p, q)
    else match b1.pop, b2.shift with
      | .ok (some p, b1), .ok (some q, b2) =>
        if p ≠ q then (b1, b2, p, q) else seam b1 b2 p q fuel
      | _, _ => (b1, b2, p, q)

/-- coord.py:290-301: everything after the `for` loop; `r` is the loop variable, unbound if the loop had no iteration. -/
def closedTail (b1 b2 : Buffer Pt) (p q : Pt) (r : Option Pt) : Gen Pt :=
  let (b1, b2, p, q) := seam b1 b2 p q b1.n
  let out := drain b1 b1.n ++ [p, q] ++ drain b2 b2.n
  match r with
  | some r => (out ++ [r], none)
  | none => (out, some .unboundLocalError)

/-- coord.py:275-301 -/
def closedLoop (b1 b2 : Buffer Pt) (p q : Pt) (last : Option Pt) (err : Option PyErr) : List Pt → Gen Pt
  | [] => match err with
    | some e => .raise e
    | none => closedTail b1 b2 p q last
  | r :: s =>
    if r = q then closedLoop b1 b2 p q (some r) err s
    else if !collinear p q r then
      match cornerStep2 b1 b2 q with
      | .error e => .raise e
      | .ok (out, b1, b2) => .yields out (closedLoop b1 b2 q r (some r) err s)
    else closedLoop b1 b2 q r (some r) err s

/-- coord.py:269-301 -/
def closedNoSlit (src : Gen Pt) (k : Nat) : Gen Pt :=
  match Buffer.init k, Buffer.init k with
  | .ok b1, .ok b2 => match src with
    | ([], err) => .raise (nextErr err)
    | ([p], err) => .yields [p] (.raise (nextErr err))
    | (p :: q :: s, err) => .yields [p] (closedLoop b1 b2 p q none err s)
  | .error e, _ => .raise e
  | _, .error e => .raise e

/-- coord.py:303-308 -/
def simplify {K : Type} [Field K] [LinearOrder K] [FloorRing K] (xys : List (K × K)) (scl : K)
    (closed : Bool := false) (k : Nat := 8) : Gen Pt :=
  let s := sqrFit scl xys
  if closed then closedNoSlit s k else openNoSlit s k

end Coral
