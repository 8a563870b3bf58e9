import Verif.Py
import Verif.PyNum
import Mathlib.Data.Rat.Floor
import Mathlib.Algebra.Order.Field.Basic
import Mathlib.Data.Nat.Bitwise
import Mathlib.Data.List.Rotate

/-!
# What the raster properties say

Nothing here refers to the model.
-/
namespace Coral

/-- The value of cell `p` after a history of writes to cells, when a write of `w` over `v` leaves `apply v w`.
Only the writes to `p` matter. -/
def cellAfter {P V W : Type} [DecidableEq P] (apply : V → W → V) (init : V) (ws : List (P × W)) (p : P) : V :=
  (ws.filter (fun w => decide (w.1 = p))).foldl (fun v w => apply v w.2) init

/-- The value last written to cell `p`, `init` if it never was. -/
def lastWritten {P V : Type} [DecidableEq P] (init : V) (ws : List (P × V)) (p : P) : V :=
  (((ws.filter (fun w => decide (w.1 = p))).getLast?).map Prod.snd).getD init

/-- The pixel `(x, y)` is on a canvas of this size. -/
def OnCanvas (width height : Nat) (x y : Int) : Prop := 0 ≤ x ∧ x < width ∧ 0 ≤ y ∧ y < height

instance (w h : Nat) (x y : Int) : Decidable (OnCanvas w h x y) := by unfold OnCanvas; infer_instance

section
variable {K : Type} [Field K] [LinearOrder K] [FloorRing K]

/-- A mix of a background and a foreground, with weight `alpha` for the foreground, rounded half up. -/
def Mix (bg fg alpha : K) : Int := ⌊bg + (fg - bg) * alpha + 1 / 2⌋
end

/-- The value of a string of ASCII digits. -/
def decValue (ds : List Byte) : Nat := ds.foldl (fun v d => v * 10 + (d - 48)) 0

/-- The ASCII decimal notation of `n`: digits only, no leading zero (unless `n` is zero), and of value `n`. -/
def IsDecimal (n : Nat) (ds : List Byte) : Prop :=
  ds ≠ [] ∧ (∀ d ∈ ds, 48 ≤ d ∧ d ≤ 57) ∧ (ds.head? = some 48 → ds = [48]) ∧ decValue ds = n

/-- A binary PNM file: magic number, size, maximum (not in PBM), one newline, then the raster. -/
def IsPNM (kind : Byte) (maxval : List Byte) (width height : Nat) (raster file : List Byte) : Prop :=
  ∃ w h, IsDecimal width w ∧ IsDecimal height h ∧
    file = [80, kind] ++ [10] ++ w ++ [32] ++ h ++ [10] ++ maxval ++ raster

/-- The raster of a PBM file shows `pix`: rows of whole bytes, most significant bit leftmost. -/
def PBMRaster (width height : Nat) (raster : List Byte) (pix : Nat → Nat → Bool) : Prop :=
  raster.length = height * ((width + 7) / 8) ∧ (∀ b ∈ raster, b < 256) ∧
    ∀ x y, x < width → y < height →
      (raster[y * ((width + 7) / 8) + x / 8]?).map (fun b => b.testBit (7 - x % 8)) = some (pix x y)

/-- The raster of a PGM file shows `pix`. -/
def PGMRaster (width height : Nat) (raster : List Byte) (pix : Nat → Nat → Nat) : Prop :=
  raster.length = height * width ∧ (∀ b ∈ raster, b < 256) ∧
    ∀ x y, x < width → y < height → raster[y * width + x]? = some (pix x y)

/-- The raster of a PPM file shows `pix`: three bytes per pixel. -/
def PPMRaster (width height : Nat) (raster : List Byte) (pix : Nat → Nat → Nat × Nat × Nat) : Prop :=
  raster.length = height * (width * 3) ∧ (∀ b ∈ raster, b < 256) ∧
    ∀ x y, x < width → y < height →
      raster[y * (width * 3) + x * 3]? = some (pix x y).1 ∧
      raster[y * (width * 3) + x * 3 + 1]? = some (pix x y).2.1 ∧
      raster[y * (width * 3) + x * 3 + 2]? = some (pix x y).2.2

/-! ### Lines -/

/-- A walk on the pixel grid: every step goes to an 8-neighbour, never away from the end. -/
def WalksTo (stop : Int × Int) : List (Int × Int) → Prop
  | p :: q :: rest =>
    (|q.1 - p.1| ≤ 1 ∧ |q.2 - p.2| ≤ 1 ∧ q ≠ p ∧ |stop.1 - q.1| ≤ |stop.1 - p.1| ∧ |stop.2 - q.2| ≤ |stop.2 - p.2|) ∧
      WalksTo stop (q :: rest)
  | _ => True

/-- `p` is between the end points in both coordinates, and within half a pixel, along the axis in which the segment is
shorter, of the segment. -/
def NearSegment (a b p : Int × Int) : Prop :=
  min a.1 b.1 ≤ p.1 ∧ p.1 ≤ max a.1 b.1 ∧ min a.2 b.2 ≤ p.2 ∧ p.2 ≤ max a.2 b.2 ∧
  (|b.2 - a.2| ≤ |b.1 - a.1| → b.1 ≠ a.1 →
    |(p.2 : ℚ) - (a.2 + (p.1 - a.1 : ℚ) * ((b.2 - a.2 : ℚ) / (b.1 - a.1)))| ≤ 1 / 2) ∧
  (|b.1 - a.1| ≤ |b.2 - a.2| → b.2 ≠ a.2 →
    |(p.1 : ℚ) - (a.1 + (p.2 - a.2 : ℚ) * ((b.1 - a.1 : ℚ) / (b.2 - a.2)))| ≤ 1 / 2)

/-- `(a, b)` is a side of the closed polygon through `points`. -/
def IsSide (points : List (Int × Int)) (a b : Int × Int) : Prop :=
  (∃ i, points[i]? = some a ∧ points[i + 1]? = some b) ∨ (points.getLast? = some a ∧ points.head? = some b)

/-! ### Filling -/

/-- The side from `a` to `b` meets the pixel row `y`: rows go from the upper end included to the lower end excluded. -/
def MeetsRow (y : Int) (a b : Int × Int) : Prop := min a.2 b.2 ≤ y ∧ y < max a.2 b.2

instance (y : Int) (a b : Int × Int) : Decidable (MeetsRow y a b) := by unfold MeetsRow; infer_instance

/-- Where the side crosses row `y`. -/
def crossingAt (y : Int) (a b : Int × Int) : ℚ := a.1 + (y - a.2 : ℚ) * ((b.1 - a.1 : ℚ) / (b.2 - a.2))

/-- The sides of a closed polygon. -/
def sidesOf (points : List (Int × Int)) : List ((Int × Int) × (Int × Int)) := points.zip (points.rotate 1)

/-- The crossings of row `y`: the pixel column where it happens (rounded to the nearest, ties to even), and whether the
side goes down. -/
def crossings (y : Int) (sides : List ((Int × Int) × (Int × Int))) : List (Int × Bool) :=
  sides.filterMap (fun s => if MeetsRow y s.1 s.2 then some (pyRound (crossingAt y s.1 s.2), decide (s.1.2 < s.2.2)) else none)

/-- Even-odd rule: an odd number of sides cross row `y` at or before column `x`. -/
def EvenOddInside (sides : List ((Int × Int) × (Int × Int))) (x y : Int) : Prop :=
  Odd ((crossings y sides).countP (fun c => decide (c.1 ≤ x)))

/-- From left to right, sides going up and down alternate, starting with one going up, and after a side going down the
next is in a later column. -/
inductive Alternating : Int → List (Int × Bool) → Prop
  | nil {lo} : Alternating lo []
  | pair {lo u v rest} : lo < u → u ≤ v → Alternating v rest → Alternating lo ((u, false) :: (v, true) :: rest)

end Coral
