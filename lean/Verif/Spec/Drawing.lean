import Verif.Spec.Vector

/-! # Where texts and circles are meant to be -/
namespace Coral
namespace Vector
open PS

section
variable {K : Type} [Field K]

/-- The point of a box `(x0, y0, x1, y1)` that an anchor names: `t`, `b`, `l`, `r` are its sides, `c` its centre. -/
def anchorOf (anchor : String) (b : K × K × K × K) : K × K :=
  (if anchor ∈ ["tl", "l", "bl"] then b.1 else if anchor ∈ ["tr", "r", "br"] then b.2.2.1 else (b.1 + b.2.2.1) / 2,
   if anchor ∈ ["bl", "b", "br"] then b.2.1 else if anchor ∈ ["tl", "t", "tr"] then b.2.2.2 else (b.2.1 + b.2.2.2) / 2)

/-- The box around the glyphs of a text that starts at `p`, given the box when it starts at the origin. -/
def textBox (e : K × K × K × K) (p : K × K) : K × K × K × K := (p.1 + e.1, p.2 + e.2.1, p.1 + e.2.2.1, p.2 + e.2.2.2)

/-- Nothing but starting points. -/
def OnlyMoves (path : List (Seg K)) : Prop := ∀ s ∈ path, ∃ p, s = .move p

/-- The machine measures texts right: the box of a path with nothing in it but a text is the box around the glyphs, wherever the
text starts. `ext` gives the boxes of texts starting at the origin. -/
def Measures (env : Env K) (ext : List Char → String → K → K × K × K × K) : Prop :=
  ∀ (m : CTM K), m.sx ≠ 0 → m.sy ≠ 0 → ∀ path, OnlyMoves path → ∀ (x y : K) (t : List Char) (font : String) (size : K),
    env.box m (path ++ [.chars (m.apply x y) t font size]) = textBox (ext t font size) (x, y)

/-- The call paints what it draws. -/
def Painted : Call K → Prop
  | .circle _ _ f s => f ≠ none ∨ s ≠ none
  | .polygon ps f s => ps = [] ∨ f ≠ none ∨ s ≠ none
  | .rounded _ _ f s => f ≠ none ∨ s ≠ none
  | _ => True

/-- How many things a call puts on the page. -/
def paints : Call K → Nat
  | .circle _ _ f s => (if f.isSome then 1 else 0) + (if s.isSome then 1 else 0)
  | .rounded _ _ f s => (if f.isSome then 1 else 0) + (if s.isSome then 1 else 0)
  | .polygon ps f s => if ps.isEmpty then 0 else (if f.isSome then 1 else 0) + (if s.isSome then 1 else 0)
  | .polyline ps _ => if ps.isEmpty then 0 else 1
  | .text _ _ _ _ _ => 1
  | .image _ _ _ _ _ => 1
  | _ => 0

/-- Whether nothing is left over after the calls: no text, and no shape without fill and stroke, since the last shape painted. -/
def clean : Bool → List (Call K) → Bool
  | b, [] => b
  | _, .circle _ _ f s :: cs => clean (f.isSome || s.isSome) cs
  | _, .rounded _ _ f s :: cs => clean (f.isSome || s.isSome) cs
  | b, .polygon ps f s :: cs => clean (if ps.isEmpty then b else (f.isSome || s.isSome)) cs
  | b, .polyline ps _ :: cs => clean (if ps.isEmpty then b else true) cs
  | _, .text _ _ _ _ _ :: cs => clean false cs
  | b, .setgray _ :: cs => clean b cs
  | b, .setcolor _ _ _ :: cs => clean b cs
  | b, .setink _ :: cs => clean b cs
  | b, .setwidth _ :: cs => clean b cs
  | b, .setdash _ _ :: cs => clean b cs
  | b, .image _ _ _ _ _ :: cs => clean b cs
  | b, .resetbbox :: cs => clean b cs
  | b, .mutate _ _ :: cs => clean b cs

end
end Vector
end Coral
