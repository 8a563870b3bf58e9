import Verif.Spec.Raster

/-!
# Anti-aliased lines
-/
namespace Coral

section
variable {K : Type} [Field K] [LinearOrder K] [FloorRing K]

/-- The height at `x` of the line through `p` and `q`. -/
def heightAt (p q : K × K) (x : K) : K := p.2 + (q.2 - p.2) / (q.1 - p.1) * (x - p.1)

/-- The point with abscissa `x` and ordinate `y`, or the other way round. -/
def pixelAt {α : Type} (flip : Bool) (x y : α) : α × α := if flip then (y, x) else (x, y)

/-- The centre of a pixel. -/
def ptOf (a : Int × Int) : K × K := ((a.1 : K), (a.2 : K))

/-- The column with the centre nearest to `x`. -/
def columnOf (x : K) : Int := ⌊x + 1 / 2⌋

/-- The columns strictly between two others. -/
def columnsBetween (a b : Int) : List Int := (List.range (b - (a + 1)).toNat).map fun i : Nat => a + 1 + (i : Int)

/-- The share of the column around `n` which the interval from `x0` to `x1` covers. -/
def coveredShare (x0 x1 : K) (n : Int) : K := max 0 (min x1 ((n : K) + 1 / 2) - max x0 ((n : K) - 1 / 2))

/-- The two pixels next to the height `y`, sharing the weight `w` so that their mean is at `y`. -/
def twoPixels (flip : Bool) (x : Int) (y w : K) : List ((Int × Int) × K) :=
  [(pixelAt flip x ⌊y⌋, (1 - Int.fract y) * w), (pixelAt flip x (⌊y⌋ + 1), Int.fract y * w)]

/-- For a line that is wider than high: the weight of a pixel is one less its distance from the line, measured upright, and half of this in the
columns of the ends. -/
def flatWeight (a b : Int × Int) (x y : Int) : K :=
  if min a.1 b.1 ≤ x ∧ x ≤ max a.1 b.1 then
    max 0 (1 - |(y : K) - heightAt ((a.1 : K), (a.2 : K)) ((b.1 : K), (b.2 : K)) x|) * (if x = a.1 ∨ x = b.1 then 1 / 2 else 1)
  else 0

/-- The weight of a pixel in the anti-aliased line between the centres of two pixels. -/
def lineWeight (a b : Int × Int) (x y : Int) : K :=
  if |b.2 - a.2| > |b.1 - a.1| then flatWeight (a.2, a.1) (b.2, b.1) y x else flatWeight a b x y

end

/-- The line between two pixels of the canvas is wider than high (or as wide) and no end is in the last row, or it is higher than wide and no end is the last pixel of all. -/
def LineFits (w h : Nat) (a b : Int × Int) : Prop := OnCanvas w h a.1 a.2 ∧ OnCanvas w h b.1 b.2 ∧
  (¬ |b.2 - a.2| > |b.1 - a.1| → a.2 + 1 < h ∧ b.2 + 1 < h) ∧
  (|b.2 - a.2| > |b.1 - a.1| → ¬ (a.1 + 1 = w ∧ a.2 + 1 = h) ∧ ¬ (b.1 + 1 = w ∧ b.2 + 1 = h))

instance (w h : Nat) (a b : Int × Int) : Decidable (LineFits w h a b) := by unfold LineFits; infer_instance

end Coral
