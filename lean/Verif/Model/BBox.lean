import Verif.Py
import Mathlib.Algebra.Order.Field.Basic
import Mathlib.Tactic.Ring
import Mathlib.Tactic.Linarith
import Mathlib.Tactic.FieldSimp

/-!
# Model of `coral/bbox.py`

Coordinates range over any linearly ordered field `K` (exact arithmetic instead of IEEE doubles).
-/
namespace Coral

/-- bbox.py:31 `__slots__ = 'x0', 'y0', 'x1', 'y1'`. -/
structure BBox (K : Type) where
  x0 : K
  y0 : K
  x1 : K
  y1 : K
  deriving DecidableEq, Repr

namespace BBox

section Order
variable {K : Type} [LinearOrder K]

/-- bbox.py:41-44, the loop body: the two independent `if/elif` chains. -/
def absorb (b : BBox K) (p : K × K) : BBox K :=
  let b1 := if p.1 < b.x0 then { b with x0 := p.1 } else if b.x1 < p.1 then { b with x1 := p.1 } else b
  if p.2 < b1.y0 then { b1 with y0 := p.2 } else if b1.y1 < p.2 then { b1 with y1 := p.2 } else b1

/-- bbox.py:37-44 `BBox(iterable)`; `next` on an empty iterator raises `StopIteration`. -/
def ofPoints : List (K × K) → Py (BBox K)
  | [] => .error .stopIteration
  | p :: ps => .ok (ps.foldl absorb ⟨p.1, p.2, p.1, p.2⟩)

/-- bbox.py:45-48 `BBox((x0, y0), (x1, y1))`. -/
def ofCorners (p0 p1 : K × K) : BBox K := ⟨p0.1, p0.2, p1.1, p1.2⟩

/-- bbox.py:136-139 (half-open membership). -/
def hasPoint (b : BBox K) (p : K × K) : Bool :=
  decide (b.x0 ≤ p.1) && decide (p.1 < b.x1) && (decide (b.y0 ≤ p.2) && decide (p.2 < b.y1))

/-- bbox.py:141-145. -/
def hasBBox (b o : BBox K) : Bool := b.hasPoint (o.x0, o.y0) && b.hasPoint (o.x1, o.y1)

/-- bbox.py:147-153. -/
def collide (b o : BBox K) : Bool :=
  ((decide (b.x0 ≤ o.x0) && decide (o.x0 < b.x1)) || (decide (o.x0 ≤ b.x0) && decide (b.x0 < o.x1))) &&
  ((decide (b.y0 ≤ o.y0) && decide (o.y0 < b.y1)) || (decide (o.y0 ≤ b.y0) && decide (b.y0 < o.y1)))

end Order

/-- What can be on the left of `in`: bbox.py:88-95 dispatches on the type of the item. -/
inductive Item (K : Type) where
  | bbox (b : BBox K)
  | pair (x y : K)
  | other

/-- bbox.py:88-95 `__contains__`. -/
def contains {K : Type} [LinearOrder K] (b : BBox K) : Item K → Py Bool
  | .bbox o => .ok (b.hasBBox o)
  | .pair x y => .ok (b.hasPoint (x, y))
  | .other => .error .typeError

section Field
variable {K : Type} [Field K] [LinearOrder K]

/-- bbox.py:35-36 `BBox()`. -/
def empty : BBox K := ⟨0, 0, 0, 0⟩

/-- bbox.py:120-122. -/
def width (b : BBox K) : K := b.x1 - b.x0
/-- bbox.py:124-126. -/
def height (b : BBox K) : K := b.y1 - b.y0
/-- bbox.py:128-130. -/
def area (b : BBox K) : K := (b.x1 - b.x0) * (b.y1 - b.y0)
/-- bbox.py:114-118. -/
def center (b : BBox K) : K × K := ((b.x0 + b.x1) / 2, (b.y0 + b.y1) / 2)
/-- bbox.py:65-66 `__bool__`: `bool(area)`. -/
def truthy (b : BBox K) : Bool := decide (b.area ≠ 0)
/-- bbox.py:110-112. -/
def copy (b : BBox K) : BBox K := ofCorners (b.x0, b.y0) (b.x1, b.y1)

/-- bbox.py:68-75 `__or__`. -/
def union (a b : BBox K) : BBox K :=
  if !a.truthy then b
  else if !b.truthy then a
  else ofCorners (min a.x0 b.x0, min a.y0 b.y0) (max a.x1 b.x1, max a.y1 b.y1)

/-- bbox.py:77-86 `__and__`. -/
def inter (a b : BBox K) : BBox K :=
  if !a.truthy || !b.truthy then empty
  else
    let x0 := max a.x0 b.x0
    let y0 := max a.y0 b.y0
    let x1 := min a.x1 b.x1
    let y1 := min a.y1 b.y1
    if x0 ≥ x1 ∨ y0 ≥ y1 then empty else ofCorners (x0, y0) (x1, y1)

/-- bbox.py:155-161. -/
def translate (b : BBox K) (dx dy : K) : BBox K :=
  ofCorners (b.x0 + dx, b.y0 + dy) (b.x1 + dx, b.y1 + dy)

/-- bbox.py:97-98 `__add__`. -/
def add (b : BBox K) (p : K × K) : BBox K := b.translate p.1 p.2
/-- bbox.py:100-102 `__sub__`. -/
def sub (b : BBox K) (p : K × K) : BBox K := b.translate (-p.1) (-p.2)

/-- bbox.py:163-173. -/
def scale (b : BBox K) (factor : K) : BBox K :=
  let half := factor / 2
  let hw := b.width * half
  let hh := b.height * half
  let c := b.center
  ofCorners (c.1 - hw, c.2 - hh) (c.1 + hw, c.2 + hh)

/-- bbox.py:104-105 `__mul__`. -/
def mul (b : BBox K) (factor : K) : BBox K := b.scale factor
/-- bbox.py:107-108 `__truediv__`: `1/factor` raises `ZeroDivisionError` for zero. -/
def truediv (b : BBox K) (factor : K) : Py (BBox K) :=
  if factor = 0 then .error .zeroDivisionError else .ok (b.scale (1 / factor))

/-- bbox.py:62-63 `__lt__`. -/
def lt (a b : BBox K) : Bool := decide (a.area < b.area)

end Field

/-! ### Equality and hashing (bbox.py:56-60) -/

/-- CPython's `hash` of an `int`: reduction modulo the Mersenne prime 2^61-1 keeping the sign, with -1 replaced
by -2 (CPython `long_hash`; 64-bit builds). -/
def pyIntHash (n : Int) : Int :=
  let h := n.sign * (n.natAbs % (2 ^ 61 - 1) : Nat)
  if h = -1 then -2 else h

/-- bbox.py:56-57 `hash((x0, y0, x1, y1))` for integer coordinates. CPython's tuple hash is a function `th` of the
hashes of the items; it is left abstract. -/
def hash (th : List Int → Int) (b : BBox Int) : Int :=
  th [pyIntHash b.x0, pyIntHash b.y0, pyIntHash b.x1, pyIntHash b.y1]

/-- bbox.py:59-60 `__eq__`: compares hashes. -/
def eqHash (th : List Int → Int) (a b : BBox Int) : Bool := decide (a.hash th = b.hash th)

/-! ### Operators derived by `functools.total_ordering` (bbox.py:24) from `__lt__` and `__eq__`.
`lt`/`eq` are the results of `a < b` and `a == b`. -/

/-- `__gt__`: `not (a < b) and a != b` -/
def gtFrom (lt eq : Bool) : Bool := !lt && !eq
/-- `__le__`: `a < b or a == b` -/
def leFrom (lt eq : Bool) : Bool := lt || eq
/-- `__ge__`: `not (a < b)` -/
def geFrom (lt : Bool) : Bool := !lt

section
variable {K : Type} [Field K] [LinearOrder K]
/-- `a > b`; hash equality idealised to equality of coordinates (see `eqHash` for the real one). -/
def gt (a b : BBox K) : Bool := gtFrom (lt a b) (decide (a = b))
/-- `a <= b` -/
def le (a b : BBox K) : Bool := leFrom (lt a b) (decide (a = b))
/-- `a >= b` -/
def ge (a b : BBox K) : Bool := geFrom (lt a b)
end

end BBox
end Coral
