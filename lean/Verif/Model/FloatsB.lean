import Verif.Model.Floats
import Verif.Model.Gradient
import Verif.Model.Grid
import Verif.Model.PF
import Verif.Model.Stats

/-!
# Arithmetic on floats: statistics, gradients, grids and P files

As in `Model/Floats.lean`, every operation on floats is rounded (`fl`). An integer that meets a float is converted first, which rounds it too.
-/
namespace Coral
namespace Flt

/-- stats.py:32 `math.fsum`: the exact sum, rounded once. -/
def fsum (xs : List ℚ) : ℚ := fl xs.sum

/-- `a / b` of floats, with `ZeroDivisionError`. -/
def div (a b : ℚ) : Py ℚ := if b = 0 then .error .zeroDivisionError else .ok (fl (a / b))

/-- stats.py:36-38 (the length is below 2^53, so its conversion is exact). -/
def avg (seq : List ℚ) : Py ℚ := div (fsum seq) (seq.length : ℚ)

/-- stats.py:40-43 -/
def var (seq : List ℚ) : Py ℚ := do
  let u ← avg seq
  div (fsum (seq.map (fun x => fl (fl (x - u) * fl (x - u))))) (seq.length : ℚ)

/-- gradient.py:34-45 -/
def get (g : Gradient ℚ) (x : ℚ) : Py (List ℚ) := do
  let ib := bisectLeft g.pos x
  let p ← pyIndex g.pos ib
  if p = x then pyIndex g.rgb ib
  else do
    let ia : Int := (ib : Int) - 1
    let pa ← pyIndex g.pos ia
    let pb ← pyIndex g.pos ib
    if fl (pb - pa) = 0 then .error .zeroDivisionError
    else do
      let fa := fl (fl (pb - x) / fl (pb - pa))
      let fb := fl (fl (x - pa) / fl (pb - pa))
      let ca ← pyIndex g.rgb ia
      let cb ← pyIndex g.rgb ib
      return List.zipWith (fun ia ib => fl (fl (ia * fa) + fl (ib * fb))) ca cb

/-- gradient.py:47-49 -/
def getHex (g : Gradient ℚ) (x : ℚ) : Py (List Char) := do
  let c ← get g x
  let ds ← c.mapM (fun i => pyIndex (pyHex (intTrunc (fl (i * 15)))) 2)
  return '#' :: ds

/-- grid.py:103-108 for a number. The attributes are those of `FVar`; `delta` has been rounded by `init`. -/
def fvarIndex (v : FVar ℚ) (x : ℚ) : Py Int := do
  pyAssert (v.minv ≤ x && x ≤ v.maxv)
  let t ← div (fl (fl (x - v.minv) * fl v.span)) v.delta
  return min (pyRound t) v.span

/-- grid.py:110-115 -/
def fvarValue (v : FVar ℚ) (index : Int) : Py (Option ℚ) :=
  if index = v.span + 1 then do
    pyAssert v.nullable
    return none
  else do
    pyAssert (0 ≤ index && index ≤ v.span)
    return some (fl (v.minv + fl (fl (fl index * v.delta) / fl v.span)))

/-- grid.py:80-92 -/
def fvarInit (minv maxv : ℚ) (size : Nat) (nullable : Bool) : Py (FVar ℚ) := do
  let v ← FVar.init minv maxv size nullable
  return { v with delta := fl (maxv - minv) }

/-- pf.py:193-194 with `h = 180`, 195-196 with `h = 90`: the stored bounds of a range. -/
def quantLow (h lo : ℚ) : Int := ⌊fl (fl (fl (lo + h) * 65535) / (2 * h))⌋

/-- pf.py:194, 196 -/
def quantHigh (h hi : ℚ) : Int := ⌈fl (fl (fl (hi + h) * 65535) / (2 * h))⌉

/-- pf.py:201-204 and 273-276: `n * 360 / UMAX2 - 180`; the quotient of two integers is rounded once. -/
def dequant (h : ℚ) (n : Int) : ℚ := fl (fl ((n : ℚ) * (2 * h) / 65535) - h)

/-- pf.py:208-209: the integer that stands for `v` between the bounds `x0` and `x1`. -/
def store (umax : Int) (x0 x1 v : ℚ) : Py Int :=
  if fl (x1 - x0) = 0 then .error .zeroDivisionError
  else .ok (pyRound (fl (fl (fl (v - x0) * fl umax) / fl (x1 - x0))))

/-- pf.py:211-212 and 302-303 -/
def restore (umax : Int) (x0 x1 : ℚ) (u : Int) : ℚ := fl (x0 + fl (fl (fl u * fl (x1 - x0)) / fl umax))

/-- pf.py:193-210 for one entity: the bytes of the points of a list (already in range), whose box is `bb`. -/
def packAll (size : Nat) (bb : BBox ℚ) (points : List (ℚ × ℚ)) : Py (List Byte) := do
  let umax ← getfmt size
  let x0 := dequant 180 (quantLow 180 bb.x0)
  let x1 := dequant 180 (quantHigh 180 bb.x1)
  let y0 := dequant 90 (quantLow 90 bb.y0)
  let y1 := dequant 90 (quantHigh 90 bb.y1)
  let bss ← points.mapM (fun p => do
    let ulon ← store umax x0 x1 p.1
    let ulat ← store umax y0 y1 p.2
    let a ← packU size ulon
    let b ← packU size ulat
    return a ++ b)
  return bss.flatten

/-- pf.py:301-303: a point read back, from bounds that the reader computed like the writer (pf.py:273-276). -/
def readPoint (size : Nat) (umax : Int) (x0 x1 y0 y1 : ℚ) (bs : List Byte) : Py (ℚ × ℚ) := do
  let (ulon, ulat) ← unpackPair size bs
  return (restore umax x0 x1 ulon, restore umax y0 y1 ulat)

/-- pf.py:168-171: the loops over `lon` end with `v`. -/
def LonEnds (lon v : ℚ) : Prop := ∃ mid, While (fun x : ℚ => x < -180) (fun x => fl (x + 360)) lon mid ∧
  While (fun x : ℚ => 180 < x) (fun x => fl (x - 360)) mid v

/-- pf.py:172-175: the loops over `lat` end with `v`. -/
def LatEnds (lat v : ℚ) : Prop := ∃ mid, While (fun x : ℚ => x < -90) (fun x => fl (x + 180)) lat mid ∧
  While (fun x : ℚ => 90 < x) (fun x => fl (x + 180)) mid v

end Flt
end Coral
