import Verif.Model.Repr

/-!
# What it means to evaluate the text of an object

A small evaluator of Python expressions made of numbers, `True`, `False`, tuples and calls with positional arguments. It reads text and knows
nothing of how the text was made.
-/
namespace Coral.Text

inductive Tok where
  | lp | rp | comma | word (w : Str)
  deriving DecidableEq, Repr

/-- A word ends before a parenthesis, a comma or a blank. -/
def ends (c : Char) : Bool := c == '(' || c == ')' || c == ',' || c == ' '

/-- The word read so far, if there is one, followed by other tokens. -/
def flush (w : Str) (l : List Tok) : List Tok := if w = [] then l else .word w :: l

/-- Splitting a text into tokens; `w` is the word being read. -/
def tokens (w : Str) : Str → List Tok
  | [] => flush w []
  | c :: s =>
    if c = '(' then flush w (.lp :: tokens [] s)
    else if c = ')' then flush w (.rp :: tokens [] s)
    else if c = ',' then flush w (.comma :: tokens [] s)
    else if c = ' ' then flush w (tokens [] s)
    else tokens (w ++ [c]) s

/-- A number or a constant, or a call `f(…)`; a tuple is a call without a name. -/
inductive Expr where
  | atom (w : Str) | call (f : Str) (args : List Expr)

/-- Reading with a stack of calls that are still open and the expression read last. -/
def step : List (Str × List Expr) × Option Expr → Tok → Option (List (Str × List Expr) × Option Expr)
  | (st, none), .word w => some (st, some (.atom w))
  | (_, some _), .word _ => none
  | (st, some (.atom f)), .lp => some ((f, []) :: st, none)
  | (st, none), .lp => some (([], []) :: st, none)
  | (_, some (.call _ _)), .lp => none
  | ((f, args) :: st, some e), .comma => some ((f, args ++ [e]) :: st, none)
  | (_, _), .comma => none
  | ((f, args) :: st, some e), .rp => some (st, some (.call f (args ++ [e])))
  | ((f, args) :: st, none), .rp => some (st, some (.call f args))
  | ([], _), .rp => none

def steps : List (Str × List Expr) × Option Expr → List Tok → Option (List (Str × List Expr) × Option Expr)
  | s, [] => some s
  | s, t :: ts => (step s t).bind (fun s => steps s ts)

/-- The expression a text stands for. -/
def parse (s : Str) : Option Expr :=
  match steps ([], none) (tokens [] s) with
  | some ([], some e) => some e
  | _ => none

/-- The truth of an argument. -/
def truth : Expr → Option Bool
  | .atom w => if w = "True".toList then some true else if w = "False".toList then some false else none
  | _ => none

/-- The number an argument stands for; `True` is 1 and `False` is 0. `rd` reads the text of a number. -/
def number {K : Type} [NatCast K] (rd : Str → Option K) : Expr → Option K
  | .atom w => if w = "True".toList then some ((1 : Nat) : K) else if w = "False".toList then some ((0 : Nat) : K) else rd w
  | _ => none

/-- The two coordinates of a point. -/
def point {K : Type} [NatCast K] (rd : Str → Option K) : Expr → Option (K × K)
  | .call f [x, y] => if f = [] then do some (← number rd x, ← number rd y) else none
  | _ => none

/-- The value of `BBox(p0, p1)`. -/
def bboxOf {K : Type} [NatCast K] (rd : Str → Option K) : Expr → Option (BBox K)
  | .call f [p, q] => if f = "BBox".toList then do some (.ofCorners (← point rd p) (← point rd q)) else none
  | _ => none

/-- The value of `Buffer(n)`. -/
def bufferOf {α : Type} : Expr → Option (Py (Buffer α))
  | .call f [n] => if f = "Buffer".toList then (number readNat n).map Buffer.init else none
  | _ => none

/-- The name of a variable: a string, or something else that was passed as the name. -/
inductive Name where
  | str (s : Str) | other (e : Expr)

/-- The value of `IVar(name, minv, maxv)` and `IVar(name, minv, maxv, nullable)`. -/
def ivarOf : Expr → Option (Py (Name × IVar))
  | .call f (e :: x :: y :: rest) =>
    if f = "IVar".toList then do
      let minv ← number readInt x
      let maxv ← number readInt y
      let nullable ← match rest with
        | [] => some false
        | [b] => truth b
        | _ => none
      some ((IVar.init minv maxv nullable).map (Name.other e, ·))
    else none
  | _ => none

/-- The value of `FVar(name, minv, maxv, size)` and `FVar(name, minv, maxv, size, nullable)`. -/
def fvarOf {K : Type} [Field K] [LinearOrder K] [FloorRing K] (rd : Str → Option K) : Expr → Option (Py (Name × FVar K))
  | .call f (e :: x :: y :: n :: rest) =>
    if f = "FVar".toList then do
      let minv ← number rd x
      let maxv ← number rd y
      let size ← number readNat n
      let nullable ← match rest with
        | [] => some false
        | [b] => truth b
        | _ => none
      some ((FVar.init minv maxv size nullable).map (Name.other e, ·))
    else none
  | _ => none

/-- The value of `SVar(name, size)` and `SVar(name, size, nullable)`. -/
def svarOf : Expr → Option (Name × SVar)
  | .call f (e :: n :: rest) =>
    if f = "SVar".toList then do
      let size ← number readNat n
      let nullable ← match rest with
        | [] => some false
        | [b] => truth b
        | _ => none
      some (Name.other e, ⟨size, nullable⟩)
    else none
  | _ => none

/-- A text that is a word for the evaluator: not empty, without blanks, commas and parentheses, and not `True` or `False`. -/
def Plain (w : Str) : Prop := w ≠ [] ∧ (∀ c ∈ w, ends c = false) ∧ w ≠ "True".toList ∧ w ≠ "False".toList

/-- `eval` of a text that stands for a box. -/
def evalBBox {K : Type} [NatCast K] (rd : Str → Option K) (s : Str) : Option (BBox K) := (parse s).bind (bboxOf rd)
/-- `eval` of a text that stands for a buffer. -/
def evalBuffer {α : Type} (s : Str) : Option (Py (Buffer α)) := (parse s).bind bufferOf
/-- `eval` of a text that stands for an integer variable. -/
def evalIVar (s : Str) : Option (Py (Name × IVar)) := (parse s).bind ivarOf
/-- `eval` of a text that stands for a real variable. -/
def evalFVar {K : Type} [Field K] [LinearOrder K] [FloorRing K] (rd : Str → Option K) (s : Str) : Option (Py (Name × FVar K)) :=
  (parse s).bind (fvarOf rd)
/-- `eval` of a text that stands for a string variable. -/
def evalSVar (s : Str) : Option (Name × SVar) := (parse s).bind svarOf

end Coral.Text
