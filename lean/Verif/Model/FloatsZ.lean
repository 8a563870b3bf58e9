import Verif.Model.FloatsD

/-!
# Collinearity and simplification on floats

`coord.py` again with every operation rounded to a double (`fl`). `sqr_fit` is in `Verif/Model/FloatsD.lean`; the snapped points are integers, so the rest of `simplify` is exact.
-/
namespace Coral
namespace Flt

/-- coord.py:236-241 `collinear` for coordinates that are floats. -/
def collinear (a b c : ℚ × ℚ) : Bool :=
  fl (fl (a.1 - c.1) * fl (b.2 - a.2)) == fl (fl (a.1 - b.1) * fl (c.2 - a.2))

/-- coord.py:303-308 `simplify`. The generators behind it get integers, on which Python calculates exactly. -/
def simplify (xys : List (ℚ × ℚ)) (scl : ℚ) (closed : Bool := false) (k : Nat := 8) : Gen Pt :=
  let s := sqrFit scl xys
  if closed then closedNoSlit s k else openNoSlit s k

end Flt
end Coral
