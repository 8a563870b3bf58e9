import Verif.Model.Repr
import Mathlib.Analysis.SpecialFunctions.Pow.NNReal

/-!
# Model of the `__str__` methods of `grid.py` and of `BBox.hypot`

The variables of `Model/Grid.lean` leave out the attribute `name` (grid.py:30, 83 and 126), so it is a parameter here.
-/
namespace Coral

/-- grid.py:52-56 `IVar.__str__` -/
def IVar.str (name : Str) (v : IVar) : Str :=
  if v.nullable then "integer ".toList ++ name ++ " in [".toList ++ decInt v.minv ++ "; ".toList ++ decInt v.maxv ++ "] or null".toList
  else "integer ".toList ++ name ++ " in [".toList ++ decInt v.minv ++ "; ".toList ++ decInt v.maxv ++ "]".toList

/-- grid.py:97-101 `FVar.__str__`; `sh` is how a bound is formatted (`format(x)` without a format specification, which is `str(x)`). -/
def FVar.str {K : Type} (sh : K → Str) (name : Str) (v : FVar K) : Str :=
  if v.nullable then "real ".toList ++ name ++ " in [".toList ++ sh v.minv ++ "; ".toList ++ sh v.maxv ++ "] or null".toList
  else "real ".toList ++ name ++ " in [".toList ++ sh v.minv ++ "; ".toList ++ sh v.maxv ++ "]".toList

/-- grid.py:133-137 `SVar.__str__` -/
def SVar.str (name : Str) (v : SVar) : Str :=
  if v.nullable then "string ".toList ++ name ++ " of ".toList ++ decNat v.size ++ " bytes or null".toList
  else "string ".toList ++ name ++ " of ".toList ++ decNat v.size ++ " bytes".toList

/-- bbox.py:132-134 `BBox.hypot` on real numbers. -/
noncomputable def BBox.hypot (b : BBox ℝ) : ℝ := √((b.x1 - b.x0) ^ 2 + (b.y1 - b.y0) ^ 2)

end Coral
