import Mathlib.Algebra.Order.Floor.Ring
import Mathlib.Algebra.Order.Field.Basic
import Mathlib.Algebra.Ring.Parity
import Mathlib.Algebra.Ring.Int.Parity
import Mathlib.Tactic.Linarith
import Mathlib.Tactic.NormNum
import Mathlib.Tactic.Ring
import Mathlib.Tactic.Push

/-!
# Python's `round`

`round(x)` of Python 3 on an exact number: to the nearest integer, ties to the even one.
-/
set_option linter.unusedSectionVars false
namespace Coral

section
variable {K : Type} [Field K] [LinearOrder K] [FloorRing K]

/-- `round(x)` -/
def pyRound (x : K) : Int :=
  let f := ⌊x⌋
  if x - f < 1 / 2 then f
  else if 1 / 2 < x - f then f + 1
  else if f % 2 = 0 then f else f + 1

variable [IsStrictOrderedRing K]

theorem pyRound_abs (x : K) : |(pyRound x : K) - x| ≤ 1 / 2 := by
  have h1 := Int.floor_le x
  have h2 := Int.lt_floor_add_one x
  simp only [pyRound]
  rw [abs_le]
  split
  · constructor <;> linarith
  · split
    · push_cast; constructor <;> linarith
    · split
      · constructor <;> linarith
      · push_cast; constructor <;> linarith

theorem pyRound_floor (x : K) : pyRound x = ⌊x⌋ ∨ pyRound x = ⌊x⌋ + 1 := by
  simp only [pyRound]
  split
  · exact Or.inl rfl
  · split
    · exact Or.inr rfl
    · split
      · exact Or.inl rfl
      · exact Or.inr rfl

theorem pyRound_intCast (n : Int) : pyRound (n : K) = n := by
  simp only [pyRound, Int.floor_intCast, sub_self]
  rw [if_pos (by norm_num)]

theorem pyRound_mono {x y : K} (h : x ≤ y) : pyRound x ≤ pyRound y := by
  by_contra hc
  push Not at hc
  have hf := Int.floor_le_floor h
  have hx := pyRound_floor x
  have hy := pyRound_floor y
  have hfe : ⌊x⌋ = ⌊y⌋ := by omega
  have hx' : pyRound x = ⌊x⌋ + 1 := by omega
  have hy' : pyRound y = ⌊y⌋ := by omega
  rw [← hfe] at hy'
  simp only [pyRound, ← hfe] at hx' hy'
  split at hx'
  · omega
  · split at hx'
    · split at hy'
      · linarith
      · split at hy'
        · omega
        · linarith
    · split at hx'
      · omega
      · split at hy'
        · linarith
        · split at hy'
          · omega
          · omega

theorem pyRound_le_of_le {x : K} {n : Int} (h : x ≤ n) : pyRound x ≤ n := by
  have := pyRound_mono h
  rwa [pyRound_intCast] at this

theorem le_pyRound_of_le {x : K} {n : Int} (h : (n : K) ≤ x) : n ≤ pyRound x := by
  have := pyRound_mono h
  rwa [pyRound_intCast] at this

end
end Coral
