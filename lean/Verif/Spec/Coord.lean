import Mathlib.Data.List.Destutter
import Mathlib.Algebra.Ring.Int.Defs
import Mathlib.Data.Rat.Defs

/-!
# Specification vocabulary for `coral/coord.py`
-/
namespace Coral

/-- Twice the signed area of the triangle `a b c`. -/
def cross2 (a b c : Int × Int) : Int := (b.1 - a.1) * (c.2 - a.2) - (c.1 - a.1) * (b.2 - a.2)

/-- The vertices of a path, end points excluded, at which it turns or reverses onto a different line:
`b` is one when `a b c` are consecutive and span a triangle. -/
def turns : List (Int × Int) → List (Int × Int)
  | a :: b :: c :: l => (if cross2 a b c ≠ 0 then [b] else []) ++ turns (b :: c :: l)
  | _ => []

/-- A path without its immediate repetitions. -/
def noRepeats (l : List (Int × Int)) : List (Int × Int) := l.destutter (· ≠ ·)

/-- Compass bearing of each wind in degrees, measured the way `coord.bearing` does (west of north is positive). -/
def windBearing : String → Option ℚ
  | "N" => some 0 | "W" => some 90 | "S" => some 180 | "E" => some 270
  | "NW" => some 45 | "SW" => some 135 | "SE" => some 225 | "NE" => some 315
  | "NNW" => some (45 / 2) | "WNW" => some (135 / 2) | "WSW" => some (225 / 2) | "SSW" => some (315 / 2)
  | "SSE" => some (405 / 2) | "ESE" => some (495 / 2) | "ENE" => some (585 / 2) | "NNE" => some (675 / 2)
  | _ => none

end Coral
