import Verif.Py
import Verif.PyStr
import Verif.Model.BBox
import Verif.Spec.PostScript

/-!
# Model of `coral/vector.py`

A line of the file is modelled by its PostScript tokens (`PS.Tok`); a formatted number is the token carrying that number.
A text and a font name are written as they are. Coordinates range over an ordered field. `export` and `animation` start
programs and are not modelled.
-/
namespace Coral
namespace Vector
open PS (Tok)

abbrev Line (K : Type) := List (Tok K)

/-- An argument `fill`, `stroke`, `ink` or `bgcolor`: a number, a tuple, or something else. -/
inductive Ink (K : Type) where
  | num (v : K)
  | tuple (l : List K)
  | other
  deriving DecidableEq

/-- The characters of a string literal, written out as a list. -/
macro "chars!" s:str : term => do
  let cs := (s.getString.toList.map (fun c => (Lean.Syntax.mkCharLit c))).toArray
  `([$cs,*])

/-- vector.py:39-54 `COMMONDEF`. -/
def commonDef : List Char :=
  (chars! "\n/bd {bind def} bind def\n/m {moveto} bd\n/rm {rmoveto} bd\n/l {lineto} bd\n/rl {rlineto} bd\n/w {setlinewidth} bd\n" ++
   chars! "/v {setgray} bd\n/rgb {setrgbcolor} bd\n/gs {gsave} bd\n/gr {grestore} bd\n/s {stroke} bd\n/f {fill} bd\n/np {newpath} bd\n" ++
   chars! "/cp {closepath} bd\n")

/-- The file `coral/defs.ps`. -/
def defsPs : List Char :=
  (chars! "/sz { % (string) fontsize fontname -- (string) dy dx\n    findfont exch scalefont setfont % s\n    gs\n" ++
   chars! "        dup false charpath flattenpath pathbbox % s x0 y0 x1 y1\n    gr\n    3 -1 roll sub % s x0 x1 dy\n" ++
   chars! "    3 1 roll sub neg % s dy dx\n} bd\n\n" ++
   chars! "/sc { % (string) fontsize fontname x y\n    m sz -2 div exch -2 div rm show\n} bd\n\n" ++
   chars! "/st { % (string) fontsize fontname x y\n    m sz -2 div exch neg rm show\n} bd\n\n" ++
   chars! "/str { % (string) fontsize fontname x y\n    m sz neg exch neg rm show\n} bd\n\n" ++
   chars! "/sr { % (string) fontsize fontname x y\n    m sz neg exch -2 div rm show\n} bd\n\n" ++
   chars! "/sbr { % (string) fontsize fontname x y\n    m sz neg exch pop 0 rm show\n} bd\n\n" ++
   chars! "/sb { % (string) fontsize fontname x y\n    m sz -2 div exch pop 0 rm show\n} bd\n\n" ++
   chars! "/sbl { % (string) fontsize fontname x y\n    m sz pop 0 exch pop 0 rm show\n} bd\n\n" ++
   chars! "/sl { % (string) fontsize fontname x y\n    m sz pop 0 exch -2 div rm show\n} bd\n\n" ++
   chars! "/stl { % (string) fontsize fontname x y\n    m sz pop 0 exch neg rm show\n} bd\n\n")

/-- vector.py:62-69, the loop of `read_defs`, over the lines left; `src` is the text read so far, `acc` the pairs so far
(`keys` and `defs` in one list). `src.index(' ')` raises `ValueError` when there is no blank. -/
def readDefsLoop : Str → List (Str × Str) → List Str → Py (List (Str × Str))
  | _, acc, [] => .ok acc
  | src, acc, line :: lines =>
    if rstrip line ≠ [] then readDefsLoop (src ++ line) acc lines
    else if ' ' ∈ src then readDefsLoop [] (acc ++ [((src.takeWhile (· ≠ ' ')).drop 1, src)]) lines
    else .error .valueError

/-- vector.py:56-70 `read_defs` on the text of the file. (`src[1:i]` is the part before the blank without its first character.) -/
def readDefs (text : Str) : Py (List (Str × Str)) := readDefsLoop [] [] (splitlines text)

/-- vector.py:73 `KEYS, DEFS`; the module does not load when `read_defs` raises. -/
def defs : List (Str × Str) :=
  match readDefs defsPs with
  | .ok d => d
  | .error _ => []

/-- vector.py:74 `"sc st str sr sbr sb sbl sl stl".split()`, the keys of `DEPS`; the value is always `{"sz"}`. -/
def depKeys : List String := ["sc", "st", "str", "sr", "sbr", "sb", "sbl", "sl", "stl"]

/-- vector.py:32-37, 82: the dictionary `state`. The dash pattern is a list object: it is kept by reference (a number, looked up
in the heap of lists), with the offset. A gray level that is not a number equals no number. -/
structure State (K : Type) where
  color : List K
  gray : Option K
  width : K
  dash : Nat × K
  deriving DecidableEq

structure Canvas (K : Type) where
  bgcolor : Option (Ink K)
  lines : List (Line K)
  bbox : BBox K
  state : State K
  deps : List String
  deriving DecidableEq

variable {K : Type} [Field K] [LinearOrder K]

/-- vector.py:32-37 `PSDEFAULTS`; list number 0 is its empty dash pattern. -/
def psDefaults : State K := ⟨[0, 0, 0], some 0, 1, (0, 0)⟩

namespace Canvas

/-- vector.py:78-88 `__init__`. -/
def new (bgcolor : Option (Ink K) := none) : Canvas K :=
  { bgcolor := bgcolor, lines := [], bbox := BBox.empty, deps := [],
    state := match bgcolor with
      | none => psDefaults
      | some (.tuple l) => { psDefaults with color := l }
      | some (.num v) => { psDefaults with gray := some v }
      | some .other => { psDefaults with gray := none } }

/-- `self.lines.append(line)`. -/
def emit (c : Canvas K) (line : Line K) : Canvas K := { c with lines := c.lines ++ [line] }

/-- vector.py:98-99. -/
def resetbbox (c : Canvas K) : Canvas K := { c with bbox := BBox.empty }

/-- vector.py:101-106. -/
def setgray (c : Canvas K) (v : K) : Canvas K :=
  if c.state.gray = some v then c
  else
    let c := c.emit [.num v, .word "v"]
    { c with state := { c.state with gray := some v } }

/-- vector.py:108-113. -/
def setcolor (c : Canvas K) (r g b : K) : Canvas K :=
  if c.state.color = [r, g, b] then c
  else
    let c := c.emit [.num r, .num g, .num b, .word "rgb"]
    { c with state := { c.state with color := [r, g, b] } }

/-- vector.py:115-122. `setcolor(*ink)` raises `TypeError` unless there are three. -/
def setink (c : Canvas K) : Ink K → Py (Canvas K)
  | .tuple [r, g, b] => .ok (c.setcolor r g b)
  | .tuple _ => .error .typeError
  | .num v => .ok (c.setgray v)
  | .other => .error .typeError

/-- vector.py:124-129. -/
def setwidth (c : Canvas K) (w : K) : Canvas K :=
  if c.state.width = w then c
  else
    let c := c.emit [.num w, .word "w"]
    { c with state := { c.state with width := w } }

/-- vector.py:131-137. `heap` holds the contents of the list objects, `pattern` is the list passed. Lists are compared by
content, the reference is stored. -/
def setdash (heap : Nat → List K) (c : Canvas K) (pattern : Nat) (offset : K) : Canvas K :=
  if heap c.state.dash.1 = heap pattern ∧ c.state.dash.2 = offset then c
  else
    let c := c.emit (.word "[" :: ((heap pattern).map .num ++ [.word "]", .num offset, .word "setdash"]))
    { c with state := { c.state with dash := (pattern, offset) } }

/-- vector.py:144-153, also 194-203 and 217-226: the painting at the end of a shape. -/
def paint (c : Canvas K) (fill stroke : Option (Ink K)) : Py (Canvas K) := do
  let c ← match fill with
    | none => pure c
    | some f => do
      let c := if stroke.isSome then c.emit [.word "gs"] else c
      let c ← c.setink f
      pure (c.emit [.word "f"])
  match stroke with
    | none => pure c
    | some s => do
      let c := if fill.isSome then c.emit [.word "gr"] else c
      let c ← c.setink s
      pure (c.emit [.word "s"])

/-- vector.py:139-154. -/
def addcircle (c : Canvas K) (center : K × K) (r : K) (fill stroke : Option (Ink K)) : Py (Canvas K) := do
  let (x, y) := center
  let c := c.emit [.num x, .num y, .num r, .num 0, .num 360, .word "arc", .word "cp"]
  let c ← c.paint fill stroke
  return { c with bbox := c.bbox.union (BBox.ofCorners (x - r, y - r) (x + r, y + r)) }

/-- vector.py:165-171 and 186-192: the loop over the remaining points; the box is updated as `BBox.absorb` does. -/
def lineLoop (c : Canvas K) (b : BBox K) : List (K × K) → Canvas K × BBox K
  | [] => (c, b)
  | p :: ps => lineLoop (c.emit [.num p.1, .num p.2, .word "l"]) (b.absorb p) ps

/-- vector.py:156-175. -/
def addpolyline (c : Canvas K) (points : List (K × K)) (stroke : Option (Ink K)) : Py (Canvas K) :=
  match points with
  | [] => .ok c
  | p :: ps => do
    let c := c.emit [.word "np"]
    let c := c.emit [.num p.1, .num p.2, .word "m"]
    let (c, b) := lineLoop c (BBox.ofCorners p p) ps
    let c ← match stroke with
      | none => pure c
      | some s => c.setink s
    let c := c.emit [.word "s"]
    return { c with bbox := c.bbox.union b }

/-- vector.py:177-204. -/
def addpolygon (c : Canvas K) (points : List (K × K)) (fill stroke : Option (Ink K)) : Py (Canvas K) :=
  match points with
  | [] => .ok c
  | p :: ps => do
    let c := c.emit [.word "np"]
    let c := c.emit [.num p.1, .num p.2, .word "m"]
    let (c, b) := lineLoop c (BBox.ofCorners p p) ps
    let c := c.emit [.word "cp"]
    let c ← c.paint fill stroke
    return { c with bbox := c.bbox.union b }

/-- vector.py:213-215. -/
def arctoLoop (c : Canvas K) (radius : K) : List ((K × K) × (K × K)) → Canvas K
  | [] => c
  | (p, q) :: l => arctoLoop (c.emit [.num p.1, .num p.2, .num q.1, .num q.2, .num radius, .word "arcto"]) radius l

/-- vector.py:206-227, for a list of points; unpacking `points[:2]` raises `ValueError` for fewer than two. -/
def addroundedpolygon (c : Canvas K) (points : List (K × K)) (radius : K) (fill stroke : Option (Ink K)) : Py (Canvas K) :=
  match points with
  | p1 :: p2 :: rest => do
    let c := c.emit [.word "np"]
    let startend := ((p1.1 + p2.1) / 2, (p1.2 + p2.2) / 2)
    let poly := startend :: ((p2 :: rest) ++ [p1])
    let c := c.emit [.num startend.1, .num startend.2, .word "m"]
    let c := arctoLoop c radius ((poly.drop 1).zip (poly.drop 2 ++ poly.take 1))
    let c := c.emit [.word "cp"]
    let c ← c.paint fill stroke
    let b ← BBox.ofPoints points
    return { c with bbox := c.bbox.union b }
  | _ => .error .valueError

/-- vector.py:229-237. -/
def addtext (c : Canvas K) (pos : K × K) (text : List Char) (size : K) (font anchor : String) : Py (Canvas K) :=
  if anchor ∉ ["c", "t", "tr", "r", "br", "b", "bl", "l", "tl"] then .error .assertionError
  else
    let key := "s" ++ anchor
    let c := c.emit [.raw ('(' :: (text ++ [')'])), .num size, .lit font, .num pos.1, .num pos.2, .word key]
    .ok { c with deps := c.deps ++ key :: (if key ∈ depKeys then ["sz"] else []) }

/-- A lower-case hexadecimal digit. -/
def hexChar (n : Nat) : Char := if n < 10 then Char.ofNat ('0'.toNat + n) else Char.ofNat ('a'.toNat + (n - 10))

/-- `"{:02x}".format(v)` for a byte. -/
def hex02 (v : Nat) : List Char := [hexChar (v / 16), hexChar (v % 16)]

/-- vector.py:255-259. -/
def hexLoop (c : Canvas K) (data : List Nat) (cwidth : Nat) : Nat → Nat → Canvas K
  | 0, _ => c
  | n + 1, a => hexLoop (c.emit [.word (String.ofList (((data.take (a + cwidth)).drop a).flatMap hex02))]) data cwidth n (a + cwidth)

/-- vector.py:245-246. -/
def translated (c : Canvas K) : Option (K × K) → Canvas K
  | none => c
  | some p => c.emit [.num p.1, .num p.2, .word "translate"]

/-- vector.py:239-267, for bytes and a width that is not negative; dividing by a zero width raises `ZeroDivisionError`. -/
def addimage (c : Canvas K) (data : List Nat) (width : Nat) (position : Option (K × K)) (scale : K) (color : Bool) : Py (Canvas K) :=
  let cwidth := if color then 3 * width else width
  if cwidth = 0 then .error .zeroDivisionError
  else
    let height := data.length / cwidth
    let swidth : K := width * scale
    let sheight : K := height * scale
    let c := c.emit [.word "gs"]
    let c := c.translated position
    let c := c.emit [.num swidth, .num sheight, .word "scale"]
    let c := c.emit [.num (width : K), .num (height : K), .num 8, .word "[", .num (width : K), .num 0, .num 0, .num (-(height : K)),
      .num 0, .num (height : K), .word "]"]
    let c := c.emit [.lbrace, .word "<"]
    let c := hexLoop c data cwidth height 0
    let c := c.emit [.word ">", .rbrace]
    let c := if color then c.emit [.word "false", .num 3, .word "colorimage"] else c.emit [.word "image"]
    let c := c.emit [.word "gr"]
    let t := position.getD (0, 0)
    .ok { c with bbox := c.bbox.union (BBox.ofCorners (t.1, t.2) (swidth + t.1, sheight + t.2)) }

/-- vector.py:273-277, 278. The corners of the page. -/
def corners (c : Canvas K) (size : Option K) (margin : K) : K × K × K × K :=
  match size with
  | none => (c.bbox.x0 - margin, c.bbox.y0 - margin, c.bbox.x1 + margin, c.bbox.y1 + margin)
  | some s => (0, 0, s, s)

/-- vector.py:286-294. Formatting a tuple of fewer than three raises `IndexError`, further items are ignored; what an
argument of another type prints is unknown, an undefined word stands for it. -/
def background (c : Canvas K) (b : K × K × K × K) : Py (List (Line K)) :=
  let (x0, y0, x1, y1) := b
  let rect : Line K := [.word "np", .num x0, .num y0, .word "m", .num x1, .num y0, .word "l", .num x1, .num y1, .word "l",
    .num x0, .num y1, .word "l", .word "cp"]
  match c.bgcolor with
  | none => .ok []
  | some (.tuple (r :: g :: b :: _)) => .ok [rect, [.num r, .num g, .num b, .word "rgb", .word "f"]]
  | some (.tuple _) => .error .indexError
  | some (.num v) => .ok [rect, [.num v, .word "v", .word "f"]]
  | some .other => .ok [rect, [.word "(not a number)", .word "v", .word "f"]]

/-- vector.py:295-303; dividing by a zero extent raises `ZeroDivisionError`. -/
def fit (c : Canvas K) (size : Option K) (margin : K) : Py (List (Line K)) :=
  match size with
  | none => .ok []
  | some s =>
    let m := max c.bbox.width c.bbox.height
    if m = 0 then .error .zeroDivisionError
    else
      let scl := (s - margin) / m
      let (cx, cy) := c.bbox.center
      .ok [[.num (s / 2), .num (s / 2), .word "translate"], [.num scl, .num scl, .word "scale"],
        [.num (-cx), .num (-cy), .word "translate"]]

/-- vector.py:269-307 `save`: the lines of the file. -/
def save (c : Canvas K) (size : Option K) (margin : K) : Py (List (Line K)) := do
  let b := c.corners size margin
  let bg ← c.background b
  let ft ← c.fit size margin
  return [[.comment "%!PS-Adobe-3.0 EPSF-3.0" []], [.comment "%%BoundingBox: {} {} {} {}" [b.1, b.2.1, b.2.2.1, b.2.2.2]],
      (PS.tokens commonDef).map Tok.cast, [.num 1, .word "setlinejoin"]] ++
    (defs.filter (fun d => decide (String.ofList d.1 ∈ c.deps))).map (fun d => (PS.tokens d.2).map Tok.cast) ++
    bg ++ ft ++ [[]] ++ c.lines

end Canvas

/-! ### Histories -/

/-- A call on a canvas, or, `mutate`, the caller changing the content of one of its own lists. -/
inductive Call (K : Type) where
  | setgray (v : K)
  | setcolor (r g b : K)
  | setink (ink : Ink K)
  | setwidth (w : K)
  | setdash (pattern : Nat) (offset : K)
  | circle (center : K × K) (radius : K) (fill stroke : Option (Ink K))
  | polyline (points : List (K × K)) (stroke : Option (Ink K))
  | polygon (points : List (K × K)) (fill stroke : Option (Ink K))
  | rounded (points : List (K × K)) (radius : K) (fill stroke : Option (Ink K))
  | text (pos : K × K) (text : List Char) (size : K) (font anchor : String)
  | image (data : List Nat) (width : Nat) (position : Option (K × K)) (scale : K) (color : Bool)
  | resetbbox
  | mutate (list : Nat) (content : List K)

/-- The caller's list `i` is object `i + 1`: object 0 is the pattern in `PSDEFAULTS`. -/
def listRef (i : Nat) : Nat := i + 1

def Canvas.call (heap : Nat → List K) (c : Canvas K) : Call K → Py (Canvas K)
  | .setgray v => .ok (c.setgray v)
  | .setcolor r g b => .ok (c.setcolor r g b)
  | .setink ink => c.setink ink
  | .setwidth w => .ok (c.setwidth w)
  | .setdash p o => .ok (c.setdash heap (listRef p) o)
  | .circle ce r f s => c.addcircle ce r f s
  | .polyline ps s => c.addpolyline ps s
  | .polygon ps f s => c.addpolygon ps f s
  | .rounded ps r f s => c.addroundedpolygon ps r f s
  | .text p t s f a => c.addtext p t s f a
  | .image d w p s co => c.addimage d w p s co
  | .resetbbox => .ok c.resetbbox
  | .mutate _ _ => .ok c

/-- The lists after a call. -/
def heapAfter (heap : Nat → List K) : Call K → Nat → List K
  | .mutate i l => Function.update heap (listRef i) l
  | _ => heap

/-- A history, which ends when a call raises. -/
def runCalls : (Nat → List K) → Canvas K → List (Call K) → Py ((Nat → List K) × Canvas K)
  | heap, c, [] => .ok (heap, c)
  | heap, c, call :: calls => do
    let c ← c.call heap call
    runCalls (heapAfter heap call) c calls

/-! ### Canvases as objects -/

/-- A canvas object: `lines`, `state` and `deps` are references to objects that are changed in place (vector.py:81-88, `append`,
item assignment, `add` and `update`); a `BBox` is never changed once built, `self.bbox` is assigned anew. -/
structure CanvasObj (K : Type) where
  bgcolor : Option (Ink K)
  bbox : BBox K
  lines : Nat
  state : Nat
  deps : Nat

/-- The objects: lists of lines, dictionaries, sets, the canvases in order of creation, the lists of numbers of the caller, and the
next unused reference. -/
structure World (K : Type) where
  linesAt : Nat → List (Line K)
  stateAt : Nat → State K
  depsAt : Nat → List String
  next : Nat
  canvases : List (CanvasObj K)
  lists : Nat → List K

namespace World

/-- What the attributes of a canvas hold. -/
def view (w : World K) (o : CanvasObj K) : Canvas K := ⟨o.bgcolor, w.linesAt o.lines, o.bbox, w.stateAt o.state, w.depsAt o.deps⟩

/-- The attributes of object `i` after a method: `lines`, `state` and `deps` in place, `bbox` assigned. -/
def store (w : World K) (i : Nat) (o : CanvasObj K) (c : Canvas K) : World K :=
  { w with
    linesAt := Function.update w.linesAt o.lines c.lines
    stateAt := Function.update w.stateAt o.state c.state
    depsAt := Function.update w.depsAt o.deps c.deps
    canvases := w.canvases.set i { o with bbox := c.bbox } }

/-- A canvas with these attributes, each a new object. -/
def alloc (w : World K) (c : Canvas K) : World K :=
  { w with
    linesAt := Function.update w.linesAt w.next c.lines
    stateAt := Function.update w.stateAt w.next c.state
    depsAt := Function.update w.depsAt w.next c.deps
    next := w.next + 1
    canvases := w.canvases ++ [⟨c.bgcolor, c.bbox, w.next, w.next, w.next⟩] }

/-- What a program can do: `Canvas(bgcolor)`, `canvas.copy()`, a call on a canvas, and changing a list of its own. -/
inductive Step (K : Type) where
  | new (bgcolor : Option (Ink K))
  | copy (i : Nat)
  | call (i : Nat) (c : Call K)
  | mutate (list : Nat) (content : List K)

/-- vector.py:78-88, 90-96 (`lines[:]`, `bbox.copy()`, `state.copy()` and `deps.copy()` are new objects with the same content) and
the calls above. There is no canvas `i` before it is created: `NameError`. -/
def step (w : World K) : Step K → Py (World K)
  | .new bg => .ok (w.alloc (Canvas.new bg))
  | .copy i =>
    match w.canvases[i]? with
    | none => .error .nameError
    | some o => .ok (w.alloc { w.view o with bbox := o.bbox.copy })
  | .call i call =>
    match w.canvases[i]? with
    | none => .error .nameError
    | some o => do
      let c ← (w.view o).call w.lists call
      return { w.store i o c with lists := heapAfter w.lists call }
  | .mutate i l => .ok { w with lists := heapAfter w.lists (.mutate i l) }

def run (w : World K) : List (Step K) → Py (World K)
  | [] => .ok w
  | s :: ss => do
    let w ← w.step s
    run w ss

end World

end Vector
end Coral
