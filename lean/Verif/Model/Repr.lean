import Verif.PyDec
import Verif.Model.BBox
import Verif.Model.Buffer
import Verif.Model.Grid

/-!
# Model of the `__repr__` methods of `bbox.py`, `coord.py` and `grid.py`
-/
namespace Coral

/-- `str(b)` of a bool -/
def boolText (b : Bool) : Str := if b then "True".toList else "False".toList

/-- bbox.py:53-54; `sh` is how a coordinate is formatted (`format(x)` without a format specification, which is `str(x)`). -/
def BBox.repr {K : Type} (sh : K → Str) (b : BBox K) : Str :=
  "BBox((".toList ++ sh b.x0 ++ ", ".toList ++ sh b.y0 ++ "), (".toList ++ sh b.x1 ++ ", ".toList ++ sh b.y1 ++ "))".toList

/-- coord.py:48-49 -/
def Buffer.repr {α : Type} (b : Buffer α) : Str := "Buffer(".toList ++ decNat b.n ++ ")".toList

/-- grid.py:49-50. The name of the variable is not an argument here because the method does not use it. -/
def IVar.repr (v : IVar) : Str :=
  "IVar(".toList ++ decInt v.minv ++ ", ".toList ++ decInt v.maxv ++ ", ".toList ++ boolText v.nullable ++ ")".toList

/-- grid.py:94-95 -/
def FVar.repr {K : Type} (sh : K → Str) (v : FVar K) : Str :=
  "FVar(".toList ++ sh v.minv ++ ", ".toList ++ sh v.maxv ++ ", ".toList ++ decNat v.size ++ ", ".toList ++ boolText v.nullable ++ ")".toList

/-- grid.py:130-131 -/
def SVar.repr (v : SVar) : Str :=
  "SVar(".toList ++ decNat v.size ++ ", ".toList ++ boolText v.nullable ++ ")".toList

end Coral
