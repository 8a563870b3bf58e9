import Verif.Model.PF
import Verif.Spec.BBox

/-!
# What a P file is supposed to hold
-/
namespace Coral
variable {K : Type} [Field K] [LinearOrder K]

/-- `b` is the angle `a` moved into `[-h, h]` by a multiple of `2h`; angles already in range stay. -/
def Wraps (h a b : K) : Prop := -h ≤ b ∧ b ≤ h ∧ (∃ k : ℤ, b = a + 2 * h * k) ∧ (-h ≤ a → a ≤ h → b = a)

/-- The point that stands for `p` in the file. Latitudes are moved by multiples of 180 (as the code does). -/
def WrapsPoint (p q : K × K) : Prop := Wraps 180 p.1 q.1 ∧ Wraps 90 p.2 q.2

/-- The ring that stands for `poly` in the file: wrapped, without a repeated closing point. -/
def StoredRing (poly ring : List (K × K)) : Prop :=
  ∃ w, List.Forall₂ WrapsPoint poly w ∧ w ≠ [] ∧
    ((w.head? = w.getLast? ∧ ring = w.dropLast) ∨ (w.head? ≠ w.getLast? ∧ ring = w))

/-- The points have positive extent in both directions. -/
def PosExtent (ring : List (K × K)) : Prop :=
  (∃ p ∈ ring, ∃ q ∈ ring, p.1 < q.1) ∧ (∃ p ∈ ring, ∃ q ∈ ring, p.2 < q.2)

/-- `q` is on the 16-bit grid of the globe. -/
def OnGrid (q : QBox K) : Prop :=
  ∃ a b c d : Nat, a ≤ 65535 ∧ b ≤ 65535 ∧ c ≤ 65535 ∧ d ≤ 65535 ∧
    q.x0 = a * (360 / 65535) - 180 ∧ q.x1 = b * (360 / 65535) - 180 ∧
    q.y0 = c * (180 / 65535) - 90 ∧ q.y1 = d * (180 / 65535) - 90

/-- `q` contains all the points, and each side is less than a grid step away from one of them. -/
def Hugs (q : QBox K) (ps : List (K × K)) : Prop :=
  (∀ p ∈ ps, q.x0 ≤ p.1 ∧ p.1 ≤ q.x1 ∧ q.y0 ≤ p.2 ∧ p.2 ≤ q.y1) ∧
  (∃ p ∈ ps, p.1 - q.x0 < 360 / 65535) ∧ (∃ p ∈ ps, q.x1 - p.1 < 360 / 65535) ∧
  (∃ p ∈ ps, p.2 - q.y0 < 180 / 65535) ∧ (∃ p ∈ ps, q.y1 - p.2 < 180 / 65535)

/-- `p` is within half a quantum of `p'`, a quantum being `1 / (256^size - 1)` of the box. -/
def Near (size : Nat) (q : QBox K) (p p' : K × K) : Prop :=
  |p.1 - p'.1| ≤ (q.x1 - q.x0) / (2 * (256 ^ size - 1)) ∧ |p.2 - p'.2| ≤ (q.y1 - q.y0) / (2 * (256 ^ size - 1))

end Coral
