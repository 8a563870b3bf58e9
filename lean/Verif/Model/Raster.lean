import Verif.Model.Coord
import Verif.PyNum
import Mathlib.Data.Nat.Bitwise
import Mathlib.Data.Rat.Floor
import Mathlib.Data.List.Sort

/-!
# Model of `coral/raster.py`

Canvas sizes are natural numbers. Pixel coordinates are integers, with Python's wrapping of negative indices.
`aaline` (105-163) is in `Verif/Model/AALine.lean`.
-/
namespace Coral

/-! ### Lines (raster.py:80-103) -/

/-- raster.py:90-103: one round of the loop of `line`; the pixels set and the state `(x0, y0, err)` for the next round. -/
def lineBody (x1 y1 dx dy sx sy : Int) (s : Int × Int × Int) : List (Int × Int) × Option (Int × Int × Int) :=
  let (x0, y0, err) := s
  if (x0, y0) = (x1, y1) then ([(x0, y0)], none)
  else
    let e2 := 2 * err
    let err' := if e2 > -dy then err - dy else err
    let x' := if e2 > -dy then x0 + sx else x0
    if (x', y0) = (x1, y1) then ([(x0, y0), (x', y0)], none)
    else
      let err'' := if e2 < dx then err' + dx else err'
      let y' := if e2 < dx then y0 + sy else y0
      ([(x0, y0)], some (x', y', err''))

/-- raster.py:80-103: `line(start, end, color)` sets exactly these pixels, in this order. -/
def LineDraws (start stop : Int × Int) (pixels : List (Int × Int)) : Prop :=
  let dx : Int := |stop.1 - start.1|
  let dy : Int := |stop.2 - start.2|
  let sx : Int := if start.1 < stop.1 then 1 else -1
  let sy : Int := if start.2 < stop.2 then 1 else -1
  Loop (lineBody stop.1 stop.2 dx dy sx sy) (start.1, start.2, dx - dy) pixels

/-- raster.py:170 (and 42) `zip(points, points[1:] + points[:1])` -/
def closedEdges {α : Type} (points : List α) : List (α × α) := points.zip (points.drop 1 ++ points.take 1)

/-- raster.py:165-171 with `aa=False`: the pixels set, in order. -/
inductive StrokeDraws : List ((Int × Int) × (Int × Int)) → List (Int × Int) → Prop
  | nil : StrokeDraws [] []
  | cons {e es ps qs} : LineDraws e.1 e.2 ps → StrokeDraws es qs → StrokeDraws (e :: es) (ps ++ qs)

/-! ### Polygon filling (raster.py:34-78) -/

/-- A perimeter mark `(x, down)`. -/
abbrev Mark := Int × Bool

/-- Python's order on the tuples `(x, down)`. -/
def markLE (a b : Mark) : Prop := a.1 < b.1 ∨ (a.1 = b.1 ∧ (a.2 = false ∨ b.2 = true))

instance (a b : Mark) : Decidable (markLE a b) := by unfold markLE; infer_instance

/-- `heapq.heappush`. A heap is modelled by the sorted list of its elements, which is all that `heappop` reveals. -/
def heapPush (marks : List Mark) (m : Mark) : List Mark := marks.orderedInsert markLE m

/-- `heapq.heappush(scans[y], m)` -/
def pushAt (scans : List (List Mark)) (y : Int) (m : Mark) : Py (List (List Mark)) := do
  let marks ← pyIndex scans y
  pySetItem scans y (heapPush marks m)

/-- raster.py:51-53 and 57-60: the loop down one edge, `n` rows from row `y`; `x` grows by `step` each time. -/
def scanLoop (down : Bool) (step : ℚ) : Nat → ℚ → Int → List (List Mark) → Py (List (List Mark))
  | 0, _, _, scans => .ok scans
  | n + 1, x, y, scans => do
    let scans ← pushAt scans y (pyRound x, down)
    scanLoop down step n (x + step) (y + 1) scans

/-- raster.py:42-60: one edge. Vertices have integer coordinates, so the vertical case is the other one with step 0
(`round` of an integer is itself). -/
def scanEdge (scans : List (List Mark)) (e : (Int × Int) × (Int × Int)) : Py (List (List Mark)) :=
  let ((xa, ya), (xb, yb)) := e
  if ya = yb then .ok scans
  else
    let down : Bool := decide (ya < yb)
    let (x0, y0, x1, y1) := if down then (xa, ya, xb, yb) else (xb, yb, xa, ya)
    if x0 = x1 then scanLoop down 0 (y1 - y0).toNat x0 y0 scans
    else
      let sx : ℚ := if x0 < x1 then 1 else -1
      let slope : ℚ := |((y1 - y0 : Int) : ℚ) / ((x1 - x0 : Int) : ℚ)|
      scanLoop down (sx / slope) (y1 - y0).toNat x0 y0 scans

/-- raster.py:34-61 -/
def scanPolygon (scans : List (List Mark)) (points : List (Int × Int)) : Py (List (List Mark)) :=
  (closedEdges points).foldlM scanEdge scans

/-- raster.py:40-41 -/
def emptyScans (height : Nat) : List (List Mark) := List.replicate height []

/-- The integers `a, a+1, …, b-1`. -/
def intRange (a b : Int) : List Int := (List.range (b - a).toNat).map (fun (i : Nat) => a + (i : Int))

/-- raster.py:70-78: the loop over the marks of a row, in order; `(x1, d1)` is the current mark. The result is the
columns set. (`heappop` of an empty heap cannot happen: the mark at `width` ends the loop.) -/
def fillLoop (width : Int) : Int → Bool → Mark → List Mark → Py (List Int)
  | x0, d0, m, rest =>
    if m.1 < width then
      match rest with
      | [] => .error .indexError
      | m' :: rest' => do
        let cols ← fillLoop width (if d0 then m.1 else max x0 m.1) m.2 m' rest'
        return (if d0 then [] else intRange x0 m.1) ++ cols
    else .ok []
  termination_by structural _ _ _ rest => rest

/-- raster.py:67-78: one row; the columns set. -/
def fillRow (width : Nat) (marks : List Mark) : Py (List Int) :=
  match heapPush marks (width, false) with
  | [] => .error .indexError
  | m :: rest => fillLoop width 0 (!m.2) m rest

/-- raster.py:63-78: the pixels set by `fillpolygons`, from row `y` on. That the marks are consumed is not modelled. -/
def fillRows (width : Nat) : Int → List (List Mark) → Py (List (Int × Int))
  | _, [] => .ok []
  | y, marks :: scans => do
    let cols ← fillRow width marks
    let rest ← fillRows width (y + 1) scans
    return cols.map (fun x => (x, y)) ++ rest

/-! ### Black and white (raster.py:173-207) -/

/-- raster.py:176-183: the attributes of a `BWCanvas`. -/
structure BW where
  width : Nat
  height : Nat
  data : List Byte
  deriving DecidableEq

/-- raster.py:180 `math.ceil(width/8)`: bytes per row. -/
def bytesPerRow (width : Nat) : Nat := (width + 7) / 8

/-- Storing into an `array('B')`: the value must be in 0..255. -/
def byteOf (v : Int) : Py Byte := if 0 ≤ v ∧ v ≤ 255 then .ok v.toNat else .error .overflowError

/-- raster.py:176-183 -/
def BW.init (width height : Nat) (bgcolor : Int) : Py BW := do
  let data ← (List.replicate (bytesPerRow width * height) bgcolor).mapM byteOf
  return ⟨width, height, data⟩

/-- raster.py:187, 195: the bit number of a pixel. -/
def BW.bit (c : BW) (x y : Int) : Int := y * ((bytesPerRow c.width * 8 : Nat) : Int) + x

/-- raster.py:185-191 -/
def BW.get (c : BW) (x y : Int) : Py Nat := do
  let i := c.bit x y
  let byte ← pyIndex c.data (i / 8)
  let mask := 1 <<< (7 - i % 8).toNat
  return if byte &&& mask ≠ 0 then 1 else 0

/-- raster.py:193-201; `ldiff` is `a & ~b`. -/
def BW.set (c : BW) (x y : Int) (value : Bool) : Py BW := do
  let i := c.bit x y
  let byte ← pyIndex c.data (i / 8)
  let mask := 1 <<< (7 - i % 8).toNat
  let data ← pySetItem c.data (i / 8) (if value then byte ||| mask else Nat.ldiff byte mask)
  return { c with data }

/-- A sequence of assignments `c[x, y] = v`. -/
def BW.writes (c : BW) (ws : List ((Int × Int) × Bool)) : Py BW := ws.foldlM (fun c w => c.set w.1.1 w.1.2 w.2) c

/-- Decimal digits of a natural number, as ASCII. -/
def decimal (n : Nat) : List Byte :=
  if n < 10 then [48 + n] else decimal (n / 10) ++ [48 + n % 10]

/-- raster.py:206, 242, 288: `"{0.width} {0.height}\n"` -/
def sizeLine (w h : Nat) : List Byte := decimal w ++ ([32] ++ (decimal h ++ [10]))

/-- raster.py:203-207 -/
def BW.save (c : BW) : List Byte := [0x50, 0x34, 10] ++ (sizeLine c.width c.height ++ c.data)

/-! ### Gray (raster.py:209-244) -/

section
variable {K : Type} [Field K] [LinearOrder K] [FloorRing K]

/-- raster.py:212-217 -/
structure Gray where
  width : Nat
  height : Nat
  data : List Byte
  deriving DecidableEq

/-- raster.py:212-217 -/
def Gray.init (width height : Nat) (bgcolor : Int) : Py Gray := do
  let data ← (List.replicate (width * height) bgcolor).mapM byteOf
  return ⟨width, height, data⟩

/-- raster.py:219-222 -/
def Gray.get (c : Gray) (x y : Int) : Py Nat := pyIndex c.data (y * c.width + x)

/-- What can be assigned to a gray pixel: a value or a tuple of value and alpha. -/
inductive GrayVal (K : Type) where
  | v (v : Int)
  | va (fg a : K)

/-- raster.py:234-237 (and 279-282 for each channel) -/
def blend (bg fg alpha : K) : Int := pyTrunc (bg * (1 - alpha) + fg * alpha + 1 / 2)

/-- raster.py:227-231 -/
def Gray.newValue (c : Gray) (i : Int) : GrayVal K → Py Int
  | .v v => .ok v
  | .va fg a => do
    let bg ← pyIndex c.data i
    return blend (bg : K) fg a

/-- raster.py:224-232 -/
def Gray.set (c : Gray) (x y : Int) (value : GrayVal K) : Py Gray := do
  let i := y * c.width + x
  let v ← c.newValue i value
  let b ← byteOf v
  let data ← pySetItem c.data i b
  return { c with data }

/-- A sequence of assignments `c[x, y] = v`. -/
def Gray.writes (c : Gray) (ws : List ((Int × Int) × GrayVal K)) : Py Gray :=
  ws.foldlM (fun c w => c.set w.1.1 w.1.2 w.2) c

/-- raster.py:239-244 -/
def Gray.save (c : Gray) : List Byte :=
  [0x50, 0x35, 10] ++ (sizeLine c.width c.height ++ ([50, 53, 53, 10] ++ c.data))

/-! ### Colour (raster.py:246-290) -/

/-- raster.py:253-258 -/
structure Colour where
  width : Nat
  height : Nat
  data : List Byte
  deriving DecidableEq

/-- raster.py:246-248 `_fill` -/
def fillColor (color : List Int) (n : Nat) : List Int := (List.replicate n color).flatten

/-- raster.py:253-258 -/
def Colour.init (width height : Nat) (bgcolor : List Int) : Py Colour := do
  let data ← (fillColor bgcolor (width * height)).mapM byteOf
  return ⟨width, height, data⟩

/-- A slice bound of a sequence of length `n`, clamped as Python does. -/
def sliceBound (n : Nat) (i : Int) : Nat := if i < 0 then (i + n).toNat else min i.toNat n

/-- `l[i:j]` -/
def pySlice {α : Type} (l : List α) (i j : Int) : List α :=
  (l.drop (sliceBound l.length i)).take (sliceBound l.length j - sliceBound l.length i)

/-- `l[i:j] = new` -/
def pySetSlice {α : Type} (l : List α) (i j : Int) (new : List α) : List α :=
  let a := sliceBound l.length i
  let b := max a (sliceBound l.length j)
  l.take a ++ (new ++ l.drop b)

/-- `a, b, c = l` -/
def unpack3 {α : Type} : List α → Py (α × α × α)
  | [a, b, c] => .ok (a, b, c)
  | _ => .error .valueError

/-- raster.py:260-264 -/
def Colour.get (c : Colour) (x y : Int) : Py (Nat × Nat × Nat) :=
  let i := 3 * (y * c.width + x)
  unpack3 (pySlice c.data i (i + 3))

/-- What can be assigned to a colour pixel: four components (with alpha), or another tuple taken as it is. -/
inductive ColourVal (K : Type) where
  | plain (c : List Int)
  | rgba (r g b a : K)

/-- raster.py:269-273, 276-283 -/
def Colour.newValue (c : Colour) (i : Int) : ColourVal K → Py (List Int)
  | .plain v => .ok v
  | .rgba r g b a => do
    let (r0, g0, b0) ← unpack3 (pySlice c.data i (i + 3))
    return [blend (r0 : K) r a, blend (g0 : K) g a, blend (b0 : K) b a]

/-- raster.py:266-274 -/
def Colour.set (c : Colour) (x y : Int) (value : ColourVal K) : Py Colour := do
  let i := 3 * (y * c.width + x)
  let v ← c.newValue i value
  let bytes ← v.mapM byteOf
  return { c with data := pySetSlice c.data i (i + 3) bytes }

/-- A sequence of assignments `c[x, y] = v`. -/
def Colour.writes (c : Colour) (ws : List ((Int × Int) × ColourVal K)) : Py Colour :=
  ws.foldlM (fun c w => c.set w.1.1 w.1.2 w.2) c

/-- raster.py:285-290 -/
def Colour.save (c : Colour) : List Byte :=
  [0x50, 0x36, 10] ++ (sizeLine c.width c.height ++ ([50, 53, 53, 10] ++ c.data))

end
end Coral
