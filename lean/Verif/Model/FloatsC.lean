import Verif.Model.FloatsB

/-!
# Arithmetic on floats: bearings and angles

`bearing2cardinal`, `bearing2hours` (coord.py:221-234) and `corangle` (proj.py:27-33) with every operation rounded to a double.
-/
namespace Coral
namespace Flt

/-- Python's `v % w` for floats (`float_rem` of CPython): C's `fmod`, which is exact, then the divisor is added, with rounding, if the signs
differ. -/
def fmod (v w : ℚ) : ℚ :=
  let m := v - w * (pyTrunc (v / w) : ℚ)
  if m ≠ 0 ∧ ¬ (w < 0 ↔ m < 0) then fl (m + w) else m

/-- coord.py:221-230 -/
def bearing2cardinal (b : ℚ) : Py String :=
  let b := fmod (fl (b + 360)) 360
  let index := fl (fl (2 * b) / 45)
  pyIndex cardinals (nearest index % 16)

/-- coord.py:232-234 -/
def bearing2hours (b : ℚ) : ℚ :=
  let b := fmod (fl (b + 360)) 360
  fl (12 - fl (b / 30))

/-- `math.pi`, the double next to π: 3.141592653589793115997963468544185161590576171875. -/
def piD : ℚ := 884279719003555 / 281474976710656

/-- proj.py:27-33: the loops of `corangle(a)` end with `v`. -/
def CorangleEnds (a v : ℚ) : Prop := ∃ mid, While (fun x : ℚ => x < -piD) (fun x => fl (x + fl (2 * piD))) a mid ∧
  While (fun x : ℚ => piD < x) (fun x => fl (x - fl (2 * piD))) mid v

end Flt
end Coral
