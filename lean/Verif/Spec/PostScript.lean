import Mathlib.Algebra.Field.Defs
import Mathlib.Algebra.Field.Basic

/-!
# A small PostScript machine

What a PostScript interpreter does with the files of `vector.Canvas`: the operators that occur there, after the PostScript
Language Reference. It knows nothing of `coral`. Simplifications:

* numbers are exact; a number token carries the number (`str` of a float is read back as that float);
* transformations are the axis-parallel ones (only `translate` and `scale` occur); points of a path are kept in device
  coordinates, a circle by its centre and its two device radii;
* glyph shapes, the box of a path and the tangent points of `arcto` come from an arbitrary environment `Env`;
* `bind`, `setlinejoin` and `flattenpath` have no effect on what is recorded; `roll` is for three operands only;
* an error (undefined name, wrong operands, no current point ...) stops the machine: there is no result.
-/
namespace Coral
namespace PS

/-- A token of a file. `raw` is a string literal, from the opening parenthesis to the closing one, as written. -/
inductive Tok (K : Type) where
  | num (x : K)
  | word (s : String)
  | lit (s : String)
  | raw (s : List Char)
  | lbrace
  | rbrace
  | comment (s : String) (args : List K)
  deriving DecidableEq

/-- An object of the language. -/
inductive Obj (K : Type) where
  | num (x : K)
  | name (s : String)
  | lit (s : String)
  | str (s : List Char)
  | bytes (b : List Nat)
  | proc (body : List (Obj K))
  | mark
  | arr (l : List K)
  | bool (b : Bool)
  | font (name : String) (size : K)

/-! ### Scanning -/

/-- Where the scanner is inside a string literal: after a backslash, after some octal digits of an escape, after a carriage
return (a line feed that follows belongs to it), or anywhere else. -/
inductive ScanSt where
  | plain
  | esc
  | oct (digits value : Nat)
  | cr
  deriving DecidableEq

def octDigit (c : Char) : Option Nat := if '0' ≤ c ∧ c ≤ '7' then some (c.toNat - '0'.toNat) else none

/-- The character that a backslash and a character that is no digit stand for. -/
def escChar (c : Char) : Char :=
  if c = 'n' then '\n' else if c = 'r' then '\r' else if c = 't' then '\t' else if c = 'b' then Char.ofNat 8
  else if c = 'f' then Char.ofNat 12 else c

/-- The inside of a string literal: the characters of the string, and what follows the closing parenthesis. `d` counts the open
parentheses. Parentheses nest; an end of line, however written, is a line feed, and nothing after a backslash. -/
def scanStr : ScanSt → Nat → List Char → Option (List Char × List Char)
  | _, _, [] => none
  | .esc, d, c :: cs =>
    match octDigit c with
    | some v => scanStr (.oct 1 v) d cs
    | none =>
      if c = '\n' then scanStr .plain d cs
      else if c = '\r' then scanStr .cr d cs
      else (scanStr .plain d cs).map (fun r => (escChar c :: r.1, r.2))
  | st, d, c :: cs =>
    match st, octDigit c with
    | .oct 1 v, some w => scanStr (.oct 2 (8 * v + w)) d cs
    | .oct 2 v, some w => (scanStr .plain d cs).map (fun r => (Char.ofNat ((8 * v + w) % 256) :: r.1, r.2))
    | st, _ =>
      if st = .cr ∧ c = '\n' then scanStr .plain d cs
      else
        (if c = '\\' then scanStr .esc d cs
        else if c = '(' then (scanStr .plain (d + 1) cs).map (fun r => (c :: r.1, r.2))
        else if c = ')' then
          (match d with
          | 0 => some ([], cs)
          | d + 1 => (scanStr .plain d cs).map (fun r => (c :: r.1, r.2)))
        else if c = '\r' then (scanStr .cr d cs).map (fun r => ('\n' :: r.1, r.2))
        else (scanStr .plain d cs).map (fun r => (c :: r.1, r.2))).map
          (fun r => match st with
            | .oct _ v => (Char.ofNat v :: r.1, r.2)
            | _ => r)

/-- A string literal, from its opening parenthesis, and what follows it. -/
def scanLit : List Char → Option (List Char × List Char)
  | '(' :: cs => scanStr .plain 0 cs
  | _ => none

/-- A string literal and nothing else. -/
def strLit (s : List Char) : Option (List Char) :=
  match scanLit s with
  | some (t, []) => some t
  | _ => none

def hexDigit (c : Char) : Option Nat :=
  if '0' ≤ c ∧ c ≤ '9' then some (c.toNat - '0'.toNat)
  else if 'a' ≤ c ∧ c ≤ 'f' then some (c.toNat - 'a'.toNat + 10)
  else none

/-- Pairs of hexadecimal digits. -/
def hexBytes : List Char → Option (List Nat)
  | [] => some []
  | [_] => none
  | a :: b :: cs => do
    let x ← hexDigit a
    let y ← hexDigit b
    return (16 * x + y) :: (← hexBytes cs)

/-- An object, or a brace. -/
inductive Item (K : Type) where
  | obj (o : Obj K)
  | lbrace
  | rbrace

/-- First pass: string literals, hexadecimal strings (`hex`: the digits since an opening `<`) and comments. -/
def lex {K : Type} : Option (List Char) → List (Tok K) → Option (List (Item K))
  | none, [] => some []
  | some _, [] => none
  | some h, .word s :: ts =>
    if s = ">" then
      match hexBytes h with
      | none => none
      | some b => (lex none ts).map (.obj (.bytes b) :: ·)
    else lex (some (h ++ s.toList)) ts
  | some _, _ :: _ => none
  | none, .word s :: ts => if s = "<" then lex (some []) ts else (lex none ts).map (.obj (.name s) :: ·)
  | none, .num x :: ts => (lex none ts).map (.obj (.num x) :: ·)
  | none, .lit s :: ts => (lex none ts).map (.obj (.lit s) :: ·)
  | none, .raw s :: ts =>
    match strLit s with
    | none => none
    | some t => (lex none ts).map (.obj (.str t) :: ·)
  | none, .lbrace :: ts => (lex none ts).map (.lbrace :: ·)
  | none, .rbrace :: ts => (lex none ts).map (.rbrace :: ·)
  | none, .comment _ _ :: ts => lex none ts

/-- Second pass: procedures. The list holds the open bodies, innermost first, each reversed. -/
def group {K : Type} : List (List (Obj K)) → List (Item K) → Option (List (Obj K))
  | [], [] => some []
  | _ :: _, [] => none
  | [], .obj o :: is => (group [] is).map (o :: ·)
  | top :: st, .obj o :: is => group ((o :: top) :: st) is
  | st, .lbrace :: is => group ([] :: st) is
  | [], .rbrace :: _ => none
  | [top], .rbrace :: is => (group [] is).map (.proc top.reverse :: ·)
  | top :: next :: st, .rbrace :: is => group ((.proc top.reverse :: next) :: st) is

def parse {K : Type} (ts : List (Tok K)) : Option (List (Obj K)) := (lex none ts).bind (group [])

/-! ### Text to tokens, for the parts of a file that are fixed text -/

/-- An integer, a literal name or an executable name. -/
def classify (w : List Char) : Tok Int :=
  match w with
  | '/' :: n => .lit (String.ofList n)
  | '-' :: ds =>
    if ds ≠ [] ∧ ds.all Char.isDigit then .num (-(ds.foldl (fun a d => 10 * a + (d.toNat - '0'.toNat)) 0 : Nat))
    else .word (String.ofList w)
  | ds =>
    if ds.all Char.isDigit then .num (ds.foldl (fun a d => 10 * a + (d.toNat - '0'.toNat)) 0 : Nat)
    else .word (String.ofList w)

/-- White space separates, braces stand alone, `%` starts a comment. The arguments: the word being read, reversed, and whether
inside a comment. -/
def tokensGo : List Char → Bool → List Char → List (Tok Int)
  | w, _, [] => if w = [] then [] else [classify w.reverse]
  | _, true, c :: cs => if c = '\n' then tokensGo [] false cs else tokensGo [] true cs
  | w, false, c :: cs =>
    let pre := if w = [] then [] else [classify w.reverse]
    if c = ' ' ∨ c = '\n' then pre ++ tokensGo [] false cs
    else if c = '{' then pre ++ .lbrace :: tokensGo [] false cs
    else if c = '}' then pre ++ .rbrace :: tokensGo [] false cs
    else if c = '%' then pre ++ tokensGo [] true cs
    else tokensGo (c :: w) false cs

def tokens (s : List Char) : List (Tok Int) := tokensGo [] false s

def Tok.cast {K : Type} [IntCast K] : Tok Int → Tok K
  | .num x => .num (x : K)
  | .word s => .word s
  | .lit s => .lit s
  | .raw s => .raw s
  | .lbrace => .lbrace
  | .rbrace => .rbrace
  | .comment s args => .comment s (args.map (fun (x : Int) => (x : K)))

/-! ### The machine -/

/-- The transformation `(x, y) ↦ (sx * x + tx, sy * y + ty)`. -/
structure CTM (K : Type) where
  sx : K
  sy : K
  tx : K
  ty : K
  deriving DecidableEq

/-- A piece of a path, in device coordinates. An `arc` is preceded by a straight line if there is a current point. -/
inductive Seg (K : Type) where
  | move (p : K × K)
  | line (p : K × K)
  | arc (c : K × K) (r : K × K) (a b : K)
  | arcto (p q : K × K) (r : K × K)
  | close
  | chars (p : K × K) (s : List Char) (font : String) (size : K)
  deriving DecidableEq

/-- What is on the page, in order of painting: later things cover earlier ones. -/
inductive Paint (K : Type) where
  | fill (path : List (Seg K)) (ink : K × K × K)
  | stroke (path : List (Seg K)) (ink : K × K × K) (width : K) (dash : List K × K)
  | text (s : List Char) (font : String) (size : K) (p : K × K) (ctm : CTM K) (ink : K × K × K)
  | image (data : List Nat) (width height : K) (matrix : List K) (color : Bool) (ctm : CTM K)
  deriving DecidableEq

/-- Everything the machine does not compute itself: box of a path (`x0 y0 x1 y1`, in user coordinates), tangent points, width of
a text. -/
structure Env (K : Type) where
  box : CTM K → List (Seg K) → K × K × K × K
  tangents : CTM K → List (Seg K) → K × K × K × K
  advance : List Char → String → K → K × K

structure GState (K : Type) where
  /-- red, green, blue; a gray `v` is the colour `v v v` -/
  ink : K × K × K
  width : K
  dash : List K × K
  ctm : CTM K
  path : List (Seg K)
  font : Option (String × K)

structure St (K : Type) where
  stack : List (Obj K)
  gs : GState K
  saved : List (GState K)
  dict : List (String × List (Obj K))
  page : List (Paint K)

section
variable {K : Type} [Field K] [DecidableEq K]

def CTM.apply (m : CTM K) (x y : K) : K × K := (m.sx * x + m.tx, m.sy * y + m.ty)

/-- The current point, when the last piece is a point. -/
def current (path : List (Seg K)) : Option (K × K) :=
  match path.getLast? with
  | some (.move p) => some p
  | some (.line p) => some p
  | _ => none

/-- The initial graphics state: black, line width 1, solid lines. -/
def GState.init : GState K := ⟨(0, 0, 0), 1, ([], 0), ⟨1, 1, 0, 0⟩, [], none⟩

def St.init : St K := ⟨[], .init, [], [], []⟩

/-- The numbers above a mark, which were pushed in the given order. -/
def toMark : List (Obj K) → List K → Option (List K × List (Obj K))
  | .num x :: st, acc => toMark st (x :: acc)
  | .mark :: st, acc => some (acc, st)
  | _, _ => none

/-- The built-in operators. -/
inductive Op : Type where
  | moveto
  | lineto
  | rmoveto
  | closepath
  | newpath
  | arc
  | arcto
  | setlinewidth
  | setgray
  | setrgbcolor
  | setdash
  | setlinejoin
  | gsave
  | grestore
  | stroke
  | fill
  | translate
  | scale
  | lbracket
  | rbracket
  | bind
  | define
  | dup
  | pop
  | exch
  | roll
  | sub
  | neg
  | div
  | pushFalse
  | findfont
  | scalefont
  | setfont
  | charpath
  | flattenpath
  | pathbbox
  | showText
  | image
  | colorimage
  deriving DecidableEq

/-- Their names. -/
def Op.ofName (s : String) : Option Op :=
  [
    ("moveto", Op.moveto),
    ("lineto", Op.lineto),
    ("rmoveto", Op.rmoveto),
    ("closepath", Op.closepath),
    ("newpath", Op.newpath),
    ("arc", Op.arc),
    ("arcto", Op.arcto),
    ("setlinewidth", Op.setlinewidth),
    ("setgray", Op.setgray),
    ("setrgbcolor", Op.setrgbcolor),
    ("setdash", Op.setdash),
    ("setlinejoin", Op.setlinejoin),
    ("gsave", Op.gsave),
    ("grestore", Op.grestore),
    ("stroke", Op.stroke),
    ("fill", Op.fill),
    ("translate", Op.translate),
    ("scale", Op.scale),
    ("[", Op.lbracket),
    ("]", Op.rbracket),
    ("bind", Op.bind),
    ("def", Op.define),
    ("dup", Op.dup),
    ("pop", Op.pop),
    ("exch", Op.exch),
    ("roll", Op.roll),
    ("sub", Op.sub),
    ("neg", Op.neg),
    ("div", Op.div),
    ("false", Op.pushFalse),
    ("findfont", Op.findfont),
    ("scalefont", Op.scalefont),
    ("setfont", Op.setfont),
    ("charpath", Op.charpath),
    ("flattenpath", Op.flattenpath),
    ("pathbbox", Op.pathbbox),
    ("show", Op.showText),
    ("image", Op.image),
    ("colorimage", Op.colorimage)
  ].lookup s

/-- What they do. -/
def operator (env : Env K) (op : Op) (σ : St K) : Option (St K) :=
  let g := σ.gs
  match op with
  | .moveto =>
    match σ.stack with
    | .num y :: .num x :: st => some { σ with stack := st, gs := { g with path := g.path ++ [.move (g.ctm.apply x y)] } }
    | _ => none
  | .lineto =>
    match σ.stack with
    | .num y :: .num x :: st =>
        if g.path = [] then none
        else some { σ with stack := st, gs := { g with path := g.path ++ [.line (g.ctm.apply x y)] } }
    | _ => none
  | .rmoveto =>
    match σ.stack with
    | .num y :: .num x :: st =>
        match current g.path with
        | none => none
        | some p => some { σ with stack := st, gs := { g with path := g.path ++ [.move (p.1 + g.ctm.sx * x, p.2 + g.ctm.sy * y)] } }
    | _ => none
  | .closepath =>
    let st := σ.stack
    some { σ with stack := st, gs := { g with path := g.path ++ [.close] } }
  | .newpath =>
    let st := σ.stack
    some { σ with stack := st, gs := { g with path := [] } }
  | .arc =>
    match σ.stack with
    | .num b :: .num a :: .num r :: .num y :: .num x :: st =>
        some { σ with stack := st, gs := { g with path := g.path ++ [.arc (g.ctm.apply x y) (g.ctm.sx * r, g.ctm.sy * r) a b] } }
    | _ => none
  | .arcto =>
    match σ.stack with
    | .num r :: .num y2 :: .num x2 :: .num y1 :: .num x1 :: st =>
        if g.path = [] then none
        else
          let path := g.path ++ [.arcto (g.ctm.apply x1 y1) (g.ctm.apply x2 y2) (g.ctm.sx * r, g.ctm.sy * r)]
          let t := env.tangents g.ctm path
          some { σ with stack := .num t.2.2.2 :: .num t.2.2.1 :: .num t.2.1 :: .num t.1 :: st, gs := { g with path := path } }
    | _ => none
  | .setlinewidth =>
    match σ.stack with
    | .num w :: st => some { σ with stack := st, gs := { g with width := w } }
    | _ => none
  | .setgray =>
    match σ.stack with
    | .num v :: st => some { σ with stack := st, gs := { g with ink := (v, v, v) } }
    | _ => none
  | .setrgbcolor =>
    match σ.stack with
    | .num b :: .num gr :: .num r :: st => some { σ with stack := st, gs := { g with ink := (r, gr, b) } }
    | _ => none
  | .setdash =>
    match σ.stack with
    | .num o :: .arr l :: st => some { σ with stack := st, gs := { g with dash := (l, o) } }
    | _ => none
  | .setlinejoin =>
    match σ.stack with
    | .num _ :: st => some { σ with stack := st }
    | _ => none
  | .gsave =>
    let st := σ.stack
    some { σ with stack := st, saved := g :: σ.saved }
  | .grestore =>
    let st := σ.stack
        match σ.saved with
        | [] => some { σ with stack := st }
        | g' :: saved => some { σ with stack := st, gs := g', saved := saved }
  | .stroke =>
    let st := σ.stack
    some { σ with stack := st, gs := { g with path := [] }, page := σ.page ++ [.stroke g.path g.ink g.width g.dash] }
  | .fill =>
    let st := σ.stack
    some { σ with stack := st, gs := { g with path := [] }, page := σ.page ++ [.fill g.path g.ink] }
  | .translate =>
    match σ.stack with
    | .num y :: .num x :: st =>
        some { σ with stack := st, gs := { g with ctm := ⟨g.ctm.sx, g.ctm.sy, g.ctm.sx * x + g.ctm.tx, g.ctm.sy * y + g.ctm.ty⟩ } }
    | _ => none
  | .scale =>
    match σ.stack with
    | .num y :: .num x :: st =>
        some { σ with stack := st, gs := { g with ctm := ⟨g.ctm.sx * x, g.ctm.sy * y, g.ctm.tx, g.ctm.ty⟩ } }
    | _ => none
  | .lbracket =>
    let st := σ.stack
    some { σ with stack := .mark :: st }
  | .rbracket =>
    let st := σ.stack
    (toMark st []).map (fun p => { σ with stack := .arr p.1 :: p.2 })
  | .bind =>
    match σ.stack with
    | .proc b :: st => some { σ with stack := .proc b :: st }
    | _ => none
  | .define =>
    match σ.stack with
    | .proc b :: .lit n :: st => some { σ with stack := st, dict := (n, b) :: σ.dict }
    | _ => none
  | .dup =>
    match σ.stack with
    | o :: st => some { σ with stack := o :: o :: st }
    | _ => none
  | .pop =>
    match σ.stack with
    | _ :: st => some { σ with stack := st }
    | _ => none
  | .exch =>
    match σ.stack with
    | a :: b :: st => some { σ with stack := b :: a :: st }
    | _ => none
  | .roll =>
    match σ.stack with
    | .num j :: .num n :: a :: b :: c :: st =>
        if n ≠ 3 then none
        else if j = 1 then some { σ with stack := b :: c :: a :: st }
        else if j = -1 then some { σ with stack := c :: a :: b :: st }
        else none
    | _ => none
  | .sub =>
    match σ.stack with
    | .num y :: .num x :: st => some { σ with stack := .num (x - y) :: st }
    | _ => none
  | .neg =>
    match σ.stack with
    | .num x :: st => some { σ with stack := .num (-x) :: st }
    | _ => none
  | .div =>
    match σ.stack with
    | .num y :: .num x :: st => if y = 0 then none else some { σ with stack := .num (x / y) :: st }
    | _ => none
  | .pushFalse =>
    let st := σ.stack
    some { σ with stack := .bool false :: st }
  | .findfont =>
    match σ.stack with
    | .lit n :: st => some { σ with stack := .font n 1 :: st }
    | _ => none
  | .scalefont =>
    match σ.stack with
    | .num k :: .font n _ :: st => some { σ with stack := .font n k :: st }
    | _ => none
  | .setfont =>
    match σ.stack with
    | .font n k :: st => some { σ with stack := st, gs := { g with font := some (n, k) } }
    | _ => none
  | .charpath =>
    match σ.stack with
    | .bool _ :: .str s :: st =>
        match current g.path, g.font with
        | some p, some f => some { σ with stack := st, gs := { g with path := g.path ++ [.chars p s f.1 f.2] } }
        | _, _ => none
    | _ => none
  | .flattenpath =>
    let st := σ.stack
    some { σ with stack := st }
  | .pathbbox =>
    let st := σ.stack
        let b := env.box g.ctm g.path
        some { σ with stack := .num b.2.2.2 :: .num b.2.2.1 :: .num b.2.1 :: .num b.1 :: st }
  | .showText =>
    match σ.stack with
    | .str s :: st =>
        match current g.path, g.font with
        | some p, some f =>
          let a := env.advance s f.1 f.2
          some { σ with
            stack := st
            gs := { g with path := g.path ++ [.move (p.1 + g.ctm.sx * a.1, p.2 + g.ctm.sy * a.2)] }
            page := σ.page ++ [.text s f.1 f.2 p g.ctm g.ink] }
        | _, _ => none
    | _ => none
  | .image =>
    match σ.stack with
    | .proc [.bytes d] :: .arr m :: .num e :: .num h :: .num w :: st =>
        if e ≠ 8 then none else
        some { σ with stack := st, page := σ.page ++ [.image d w h m false g.ctm] }
    | _ => none
  | .colorimage =>
    match σ.stack with
    | .num c :: .bool false :: .proc [.bytes d] :: .arr m :: .num e :: .num h :: .num w :: st =>
        if e ≠ 8 ∨ c ≠ 3 then none else
        some { σ with stack := st, page := σ.page ++ [.image d w h m true g.ctm] }
    | _ => none

/-- Executing one object: what to execute next, before the rest, and the new state. Names are looked up among the definitions
first. -/
def act (env : Env K) (o : Obj K) (σ : St K) : Option (List (Obj K) × St K) :=
  match o with
  | .name s =>
    match σ.dict.lookup s with
    | some body => some (body, σ)
    | none =>
      match Op.ofName s with
      | none => none
      | some op => (operator env op σ).map (fun σ' => ([], σ'))
  | o => some ([], { σ with stack := o :: σ.stack })

/-- Executing a list of objects to its end. -/
inductive Exec (env : Env K) : List (Obj K) → St K → St K → Prop where
  | nil (σ : St K) : Exec env [] σ σ
  | cons {o : Obj K} {body code : List (Obj K)} {σ σ1 σ2 : St K} :
      act env o σ = some (body, σ1) → Exec env (body ++ code) σ1 σ2 → Exec env (o :: code) σ σ2

/-- A file runs to its end and leaves the machine in the given state. -/
def Runs (env : Env K) (file : List (Tok K)) (σ : St K) : Prop :=
  ∃ code, parse file = some code ∧ Exec env code St.init σ

end
end PS
end Coral
