import Verif.Model.Vector

/-!
# What a drawing is meant to look like

An immediate-mode renderer: it has a pen (ink, line width, dash pattern and the path begun but not painted yet) and puts paint
on the page at every call, with the inks of that call. No PostScript, no caches.
-/
namespace Coral
namespace Vector
open PS

structure Pen (K : Type) where
  ink : K × K × K
  width : K
  dash : List K × K
  path : List (Seg K)

section
variable {K : Type} [Field K] [LinearOrder K]

/-- The colour an ink stands for. -/
def colour : Ink K → Option (K × K × K)
  | .num v => some (v, v, v)
  | .tuple [r, g, b] => some (r, g, b)
  | _ => none

/-- Painting a path: the fill first, then the stroke over it. The path is used up, unless nothing is painted. -/
def Pen.shape (pen : Pen K) (path : List (Seg K)) (fill stroke : Option (Ink K)) : Pen K × List (Paint K) :=
  match fill, stroke with
  | none, none => ({ pen with path := path }, [])
  | some f, none => ({ pen with ink := (colour f).getD pen.ink, path := [] }, [.fill path ((colour f).getD pen.ink)])
  | none, some s =>
    ({ pen with ink := (colour s).getD pen.ink, path := [] }, [.stroke path ((colour s).getD pen.ink) pen.width pen.dash])
  | some f, some s =>
    ({ pen with ink := (colour s).getD pen.ink, path := [] },
      [.fill path ((colour f).getD pen.ink), .stroke path ((colour s).getD pen.ink) pen.width pen.dash])

/-- The path through the points. -/
def polyPath (m : CTM K) : List (K × K) → List (Seg K)
  | [] => []
  | p :: ps => .move (m.apply p.1 p.2) :: ps.map (fun q => .line (m.apply q.1 q.2))

/-- The rounded path: it starts in the middle of the first side; each arc is tangent to the sides meeting at a vertex. -/
def roundedPath (m : CTM K) (radius : K) : List (K × K) → List (Seg K)
  | p1 :: p2 :: rest =>
    let mid := ((p1.1 + p2.1) / 2, (p1.2 + p2.2) / 2)
    .move (m.apply mid.1 mid.2) ::
      (((p2 :: rest) ++ [p1]).zip (rest ++ [p1, mid])).map (fun pq =>
        .arcto (m.apply pq.1.1 pq.1.2) (m.apply pq.2.1 pq.2.2) (m.sx * radius, m.sy * radius))
  | _ => []

/-- How far the text starts from its anchor: `(dx, dy)` are its extents. -/
def anchorOffset (anchor : String) (dx dy : K) : K × K :=
  if anchor = "c" then (-dx / 2, -dy / 2)
  else if anchor = "t" then (-dx / 2, -dy)
  else if anchor = "tr" then (-dx, -dy)
  else if anchor = "r" then (-dx, -dy / 2)
  else if anchor = "br" then (-dx, 0)
  else if anchor = "b" then (-dx / 2, 0)
  else if anchor = "bl" then (0, 0)
  else if anchor = "l" then (0, -dy / 2)
  else (0, -dy)

/-- One call: the pen afterwards and what is painted. `m` is the transformation in force, `heap` the content of the caller's
lists. -/
def Pen.call (env : Env K) (m : CTM K) (heap : Nat → List K) (pen : Pen K) : Call K → Pen K × List (Paint K)
  | .setgray v => ({ pen with ink := (v, v, v) }, [])
  | .setcolor r g b => ({ pen with ink := (r, g, b) }, [])
  | .setink ink => ({ pen with ink := (colour ink).getD pen.ink }, [])
  | .setwidth w => ({ pen with width := w }, [])
  | .setdash i o => ({ pen with dash := (heap (listRef i), o) }, [])
  | .circle c r f s => pen.shape (pen.path ++ [.arc (m.apply c.1 c.2) (m.sx * r, m.sy * r) 0 360, .close]) f s
  | .polyline ps s =>
    if ps = [] then (pen, [])
    else
      let ink := (s.bind colour).getD pen.ink
      ({ pen with ink := ink, path := [] }, [.stroke (polyPath m ps) ink pen.width pen.dash])
  | .polygon ps f s => if ps = [] then (pen, []) else pen.shape (polyPath m ps ++ [.close]) f s
  | .rounded ps r f s => pen.shape (roundedPath m r ps ++ [.close]) f s
  | .text pos t size font anchor =>
    let p := m.apply pos.1 pos.2
    let b := env.box m (pen.path ++ [.move p, .chars p t font size])
    let off := anchorOffset anchor (b.2.2.1 - b.1) (b.2.2.2 - b.2.1)
    let q := (p.1 + m.sx * off.1, p.2 + m.sy * off.2)
    let adv := env.advance t font size
    ({ pen with path := pen.path ++ [.move p, .move q, .move (q.1 + m.sx * adv.1, q.2 + m.sy * adv.2)] },
      [.text t font size q m pen.ink])
  | .image data width position scale color =>
    let cwidth := if color then 3 * width else width
    let height := data.length / cwidth
    let t := position.getD (0, 0)
    (pen, [.image (data.take (height * cwidth)) width height [(width : K), 0, 0, -(height : K), 0, (height : K)] color
      ⟨m.sx * (width * scale), m.sy * (height * scale), m.sx * t.1 + m.tx, m.sy * t.2 + m.ty⟩])
  | .resetbbox => (pen, [])
  | .mutate _ _ => (pen, [])

/-- A history: everything painted, in order. -/
def Pen.draw (env : Env K) (m : CTM K) : (Nat → List K) → Pen K → List (Call K) → Pen K × List (Paint K)
  | _, pen, [] => (pen, [])
  | heap, pen, c :: cs =>
    let r := pen.call env m heap c
    let r' := Pen.draw env m (heapAfter heap c) r.1 cs
    (r'.1, r.2 ++ r'.2)

/-- Everything about a painted object but its ink. -/
def noInk : Paint K → Paint K
  | .fill p _ => .fill p (0, 0, 0)
  | .stroke p _ w d => .stroke p (0, 0, 0) w d
  | .text s f k p m _ => .text s f k p m (0, 0, 0)
  | .image d w h m c t => .image d w h m c t

/-- The operands that a call leaves on the stack of the machine: four for every corner of a rounded polygon. -/
def spill : Call K → Nat
  | .rounded ps _ _ _ => 4 * ps.length
  | _ => 0

/-- Every parenthesis has its partner: nowhere have more been closed than opened, and in the end as many. -/
def Balanced (s : List Char) : Prop := s.count '(' = s.count ')' ∧ ∀ p, p <+: s → p.count ')' ≤ p.count '('

/-- A text that can stand in a string literal as it is. -/
def PlainString (s : List Char) : Prop := Balanced s ∧ '\\' ∉ s ∧ '\r' ∉ s

/-- Texts are plain, image data are bytes, and the caller leaves its lists alone. -/
def PlainCall : Call K → Prop
  | .text _ t _ _ _ => PlainString t
  | .image d _ _ _ _ => ∀ b ∈ d, b < 256
  | .mutate _ _ => False
  | _ => True

/-- The two kinds of ink. -/
inductive Mode where
  | rgb
  | gray

def InMode : Mode → Ink K → Prop
  | .rgb, .tuple l => l.length = 3
  | .gray, .num _ => True
  | _, _ => False

/-- All inks of one kind, and fill and stroke different when both are given. -/
def InksOk (mode : Mode) : Call K → Prop
  | .setgray _ => mode = .gray
  | .setcolor _ _ _ => mode = .rgb
  | .setink i => InMode mode i
  | .circle _ _ f s => (∀ i, f = some i → InMode mode i) ∧ (∀ i, s = some i → InMode mode i) ∧ (f = s → f = none)
  | .polyline _ s => ∀ i, s = some i → InMode mode i
  | .polygon _ f s => (∀ i, f = some i → InMode mode i) ∧ (∀ i, s = some i → InMode mode i) ∧ (f = s → f = none)
  | .rounded _ _ f s => (∀ i, f = some i → InMode mode i) ∧ (∀ i, s = some i → InMode mode i) ∧ (f = s → f = none)
  | _ => True

/-- The background colour, if any, is of this kind. -/
def BgOk (mode : Mode) (bg : Option (Ink K)) : Prop := ∀ i, bg = some i → InMode mode i

/-- Where a point of the drawing comes on the page: as it is, or, if a page size is given, the centre of the box in the middle of
the page and the larger extent scaled to the size without the margin. -/
def pageMap (x0 y0 x1 y1 : K) (bigger : K) (margin : K) : Option K → CTM K
  | none => ⟨1, 1, 0, 0⟩
  | some s =>
    let k := (s - margin) / bigger
    ⟨k, k, s / 2 - k * ((x0 + x1) / 2), s / 2 - k * ((y0 + y1) / 2)⟩

/-- The transformation of a file saved with this size and margin, for the box `b`. -/
def mapOf (b : BBox K) (size : Option K) (margin : K) : CTM K :=
  pageMap b.x0 b.y0 b.x1 b.y1 (max (b.x1 - b.x0) (b.y1 - b.y0)) margin size

/-- The ink in force before the first call: the background, or black. -/
def firstInk (bg : Option (Ink K)) : K × K × K := (bg.bind colour).getD (0, 0, 0)

/-- The background covers the page, which is the box with the margin around it, or the square of the given size. -/
def bgPaint (x0 y0 x1 y1 : K) (margin : K) (bg : Option (Ink K)) (size : Option K) : List (Paint K) :=
  match bg with
  | none => []
  | some i =>
    let a := size.elim (x0 - margin, y0 - margin) (fun _ => (0, 0))
    let b := size.elim (x1 + margin, y1 + margin) (fun s => (s, s))
    [.fill [.move (a.1, a.2), .line (b.1, a.2), .line (b.1, b.2), .line (a.1, b.2), .close] ((colour i).getD (0, 0, 0))]

/-- The pen before the first call. -/
def firstPen (bg : Option (Ink K)) : Pen K := ⟨firstInk bg, 1, ([], 0), []⟩

/-- A background the file can set: a gray level or three components. -/
def PlainBg (bg : Option (Ink K)) : Prop := ∀ i, bg = some i → (∃ v, i = .num v) ∨ ∃ r g b, i = .tuple [r, g, b]

/-- The points a call adds to the extent of the drawing: the vertices, or two opposite corners. -/
def extent : Call K → List (K × K)
  | .circle c r _ _ => [(c.1 - r, c.2 - r), (c.1 + r, c.2 + r)]
  | .polyline ps _ => ps
  | .polygon ps _ _ => ps
  | .rounded ps _ _ _ => ps
  | .image d w po sc co =>
    let t := po.getD (0, 0)
    [t, (t.1 + w * sc, t.2 + (d.length / (if co then 3 * w else w) : Nat) * sc)]
  | _ => []

/-- Radii and image scales are not negative. -/
def WellSized : Call K → Prop
  | .circle _ r _ _ => 0 ≤ r
  | .image _ _ _ sc _ => 0 ≤ sc
  | _ => True

/-- The names that tokens `/name {` introduce. -/
def definedIn : List (Tok K) → List String
  | .lit n :: .lbrace :: ts => n :: definedIn ts
  | _ :: ts => definedIn ts
  | [] => []

/-- The procedures the texts of a history need. -/
def NeedsProc (calls : List (Call K)) (k : String) : Prop :=
  ∃ p t s f a, Call.text p t s f a ∈ calls ∧ (k = "s" ++ a ∨ k = "sz")

/-- The path of a painted shape. -/
def pathOf : Paint K → List (Seg K)
  | .fill p _ => p
  | .stroke p _ _ _ => p
  | _ => []

/-! Canvases as plain values: a copy is a value, a call changes one value. -/

structure Values (K : Type) where
  canvases : List (Canvas K)
  lists : Nat → List K

def Values.step (v : Values K) : World.Step K → Py (Values K)
  | .new bg => .ok { v with canvases := v.canvases ++ [Canvas.new bg] }
  | .copy i =>
    match v.canvases[i]? with
    | none => .error .nameError
    | some c => .ok { v with canvases := v.canvases ++ [c] }
  | .call i call =>
    match v.canvases[i]? with
    | none => .error .nameError
    | some c => do
      let c ← c.call v.lists call
      return { canvases := v.canvases.set i c, lists := heapAfter v.lists call }
  | .mutate i l => .ok { v with lists := heapAfter v.lists (.mutate i l) }

def Values.run (v : Values K) : List (World.Step K) → Py (Values K)
  | [] => .ok v
  | s :: ss => do
    let v ← v.step s
    v.run ss

end
end Vector
end Coral
