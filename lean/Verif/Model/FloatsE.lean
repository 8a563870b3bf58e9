import Verif.Model.FloatsB
import Mathlib.Analysis.SpecialFunctions.Pow.NNReal

/-!
# Arithmetic on floats: covariance and correlation

As in `Model/Floats.lean`, every operation on floats is rounded (`fl`). `math.sqrt` is a parameter; IEEE 754 requires it to be correctly
rounded, which is `RoundsRoots`.
-/
namespace Coral
namespace Flt

/-- What IEEE 754 requires of the square root: no float is closer to the exact root. -/
def RoundsRoots (sqrt : ℚ → ℚ) : Prop :=
  ∀ x : ℚ, 0 ≤ x → IsDouble (sqrt x) ∧ 0 ≤ sqrt x ∧ ∀ d : ℚ, IsDouble d → |(sqrt x : ℝ) - √(x : ℝ)| ≤ |(d : ℝ) - √(x : ℝ)|

/-- stats.py:45-47; `math.sqrt` raises `ValueError` for negative numbers. -/
def stdDev (sqrt : ℚ → ℚ) (seq : List ℚ) : Py ℚ := do
  let v ← var seq
  if v < 0 then .error .valueError else .ok (sqrt v)

/-- stats.py:54-58: the loop of `covar`. -/
def covarLoop (seq1 seq2 : List ℚ) (n : Nat) (u1 u2 : ℚ) : Py ℚ :=
  (List.range n).foldlM (fun cov (i : Nat) => do
    let x ← pyIndex seq1 i
    let a := fl (x - u1)
    let y ← pyIndex seq2 i
    let b := fl (y - u2)
    let q ← div (fl (a * b)) n
    return fl (cov + q)) 0

/-- stats.py:49-59 -/
def covar (seq1 seq2 : List ℚ) : Py ℚ := do
  let u1 ← avg seq1
  let u2 ← avg seq2
  covarLoop seq1 seq2 seq1.length u1 u2

/-- stats.py:61-63 -/
def corr (sqrt : ℚ → ℚ) (seq1 seq2 : List ℚ) : Py ℚ := do
  let c ← covar seq1 seq2
  let d1 ← stdDev sqrt seq1
  let d2 ← stdDev sqrt seq2
  div c (fl (d1 * d2))

end Flt
end Coral
