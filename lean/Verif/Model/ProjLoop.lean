import Verif.Model.Proj

/-!
# The loop of `EMercator.rect2geo` with inexact arithmetic

`Verif.Model.Proj` computes with real numbers. Here the computation of the next latitude is a parameter, so that it may be rounded in any way.
-/
namespace Coral
namespace Proj

/-- coral/proj.py:149-155: the loop, if lines 151-153 compute `step l0` from `l0`, started with `l0`, ends with this latitude (in radians). -/
def EMercator.LoopWith (step : ℝ → ℝ) (l0 lat : ℝ) : Prop :=
  While (fun s : ℝ × Prop => ¬ s.2) (fun s => (step s.1, step s.1 = s.1)) (l0, False) (lat, True)

end Proj
end Coral
