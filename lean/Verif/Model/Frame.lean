import Verif.Model.BBox
import Verif.Model.Coord
import Verif.Model.PF
import Verif.Model.Proj
import Verif.PyStr

/-!
# Model of `coral/frame.py`

The projection of a frame is known to `point`, `planify` and `cachenames` by its method `geo2rect` only, a function
that may raise; the coordinates are elements of an ordered field with a floor function.

Not modelled: the text produced by `json.dump`, which `json.load` is taken to turn back into equal dictionaries, lists,
strings and numbers (a `tuple` comes back as a `list`), and the progress meter which `tqdm.tqdm` prints
(`C81_items_partial` is the proof that `tqdm` passes on the items of a list unchanged).
-/
namespace Coral
namespace Frame

section
variable {K : Type} [Field K] [LinearOrder K] [FloorRing K]

/-- `x // m` on numbers. -/
def floorDiv (x m : K) : Py K := if m = 0 then .error .zeroDivisionError else .ok ((⌊x / m⌋ : Int) : K)

/-- frame.py:85-90 -/
def point (geo2rect : K → K → Py (K × K)) (scale : K) (p : K × K) : Py (K × K) := do
  let (x, y) ← geo2rect p.1 p.2
  let x ← floorDiv x scale
  let y ← floorDiv y scale
  return (x, y)

/-- frame.py:93 feeding coord.py:243-247: each point is projected when `sqr_fit` asks for it. -/
def projectFit (geo2rect : K → K → Py (K × K)) (m : K) : List (K × K) → Coral.Gen Pt
  | [] => ([], none)
  | (lon, lat) :: s => match geo2rect lon lat with
    | .error e => ([], some e)
    | .ok (x, y) =>
      if m = 0 then ([], some .zeroDivisionError)
      else
        let r := projectFit geo2rect m s
        ((nearest (x / m), nearest (y / m)) :: r.1, r.2)

/-- frame.py:92-95; `coord.simplify` (coord.py:303-308) with its default `k=8`. -/
def planify (geo2rect : K → K → Py (K × K)) (scale : K) (points : List (K × K)) (closed : Bool := true) : Coral.Gen Pt :=
  if closed then closedNoSlit (projectFit geo2rect scale points) 8 else openNoSlit (projectFit geo2rect scale points) 8

/-! ### Name caches -/

/-- A name of a PF file as a string: pf.py:121 decodes its bytes as ASCII. -/
def nameStr (n : List Nat) : Str := n.map Char.ofNat

/-- frame.py:100-105: does the loop over the polygons end with `break`? -/
def anyCollides (geo2rect : K → K → Py (K × K)) (bounding : BBox K) : List (List (K × K)) → Py Bool
  | [] => .ok false
  | points :: rest => do
    let xys ← points.mapM (fun p => geo2rect p.1 p.2)
    let bb ← BBox.ofPoints xys
    if bounding.collide bb then .ok true else anyCollides geo2rect bounding rest

/-- frame.py:99-105: the lines collected from these names. `pff.get` seeks before it reads, the position before does not matter. -/
def collect (geo2rect : K → K → Py (K × K)) (bounding : BBox K) (pff : PReader K) : List (List Nat) → Py (List Str)
  | [] => .ok []
  | name :: names => do
    let (parts, _) ← pff.get 0 name
    let hit ← anyCollides geo2rect bounding parts
    let lines ← collect geo2rect bounding pff names
    return if hit then (nameStr name ++ ['\n']) :: lines else lines

/-- frame.py:97-108: the number returned and the text written to the file `key + ".names"`. -/
def cachenames (geo2rect : K → K → Py (K × K)) (bounding : BBox K) (pff : PReader K) : Py (Nat × Str) := do
  let lines ← collect geo2rect bounding pff pff.names
  return (lines.length, lines.flatten)

end

/-- Text mode reading with universal newlines: `"\r\n"` and `"\r"` are read as `"\n"`. -/
def universal : Str → Str
  | [] => []
  | '\r' :: '\n' :: s => '\n' :: universal s
  | c :: s => (if c = '\r' then '\n' else c) :: universal s

/-- The lines over which `for line in f` iterates, in the middle of the line `cur`. -/
def fileLinesGo (cur : Str) : Str → List Str
  | [] => if cur = [] then [] else [cur]
  | c :: s => if c = '\n' then (cur ++ [c]) :: fileLinesGo [] s else fileLinesGo (cur ++ [c]) s

/-- frame.py:110-115 on a file with this text. -/
def loadnames (text : Str) : List Str := (fileLinesGo [] (universal text)).map rstrip

/-! ### Saved frames, over the real numbers -/

noncomputable section
open Proj

/-- The subclasses of `proj.Proj` in proj.py. -/
inductive SphereClass
  | mercator | transMercator | obliqMercator | eckertIV | stereographic | azimuthalEquidistant | azimuthalEqualArea
  deriving DecidableEq

/-- The name of the class (proj.py:107, 166, 192, 222, 257, 300, 348). -/
def SphereClass.name : SphereClass → String
  | mercator => "Mercator"
  | transMercator => "TransMercator"
  | obliqMercator => "ObliqMercator"
  | eckertIV => "EckertIV"
  | stereographic => "Stereographic"
  | azimuthalEquidistant => "AzimuthalEquidistant"
  | azimuthalEqualArea => "AzimuthalEqualArea"

/-- A projection object. The only subclass of `EProj` is `EMercator` (proj.py:129), the only one of `CProj` is `ConicEqualArea` (proj.py:391). -/
inductive Projection
  | sphere (c : SphereClass) (p : Sphere)
  | eMercator (p : Spheroid)
  | conic (q : Conic)

/-- What `getattr(proj, name)` finds, if it is one of the classes of projections. -/
inductive ClassObj
  | sphere (c : SphereClass)
  | eMercator
  | conic
  deriving DecidableEq

/-- `getattr(proj, name)` (frame.py:123); names of other objects of the module are not modelled. -/
def classOf (name : String) : Py ClassObj :=
  if name = "Mercator" then .ok (.sphere .mercator)
  else if name = "EMercator" then .ok .eMercator
  else if name = "TransMercator" then .ok (.sphere .transMercator)
  else if name = "ObliqMercator" then .ok (.sphere .obliqMercator)
  else if name = "EckertIV" then .ok (.sphere .eckertIV)
  else if name = "Stereographic" then .ok (.sphere .stereographic)
  else if name = "AzimuthalEquidistant" then .ok (.sphere .azimuthalEquidistant)
  else if name = "AzimuthalEqualArea" then .ok (.sphere .azimuthalEqualArea)
  else if name = "ConicEqualArea" then .ok .conic
  else .error .attributeError

/-- `type(self.projection).__name__` (frame.py:69) -/
def Projection.typeName : Projection → String
  | .sphere c _ => c.name
  | .eMercator _ => "EMercator"
  | .conic _ => "ConicEqualArea"

/-- frame.py:53-64: the dictionary `model`. -/
inductive SavedModel
  | ellipsoid (a b e f : ℝ)
  | sphere (r : ℝ)

/-- frame.py:67-80: the dictionary `d`. -/
structure Saved where
  type : String
  center : ℝ × ℝ
  orientation : ℝ
  model : SavedModel
  x0 : ℝ
  y0 : ℝ
  x1 : ℝ
  y1 : ℝ

/-- frame.py:43-49 -/
structure Frame where
  projection : Projection
  bounding : BBox ℝ

/-- frame.py:52-64 -/
def Projection.model : Projection → SavedModel
  | .sphere _ p => .sphere p.r
  | .eMercator p => .ellipsoid p.ell.a p.ell.b p.ell.e p.ell.f
  | .conic q => .sphere q.r

/-- frame.py:65: a `CProj` has no attribute `lon0`. -/
def Projection.origin : Projection → Py (ℝ × ℝ)
  | .sphere _ p => .ok (p.lon0, p.lat0)
  | .eMercator p => .ok (p.lon0, p.lat0)
  | .conic _ => .error .attributeError

/-- frame.py:51-83: what is written. -/
def Frame.save (f : Frame) : Py Saved := do
  let (rlon, rlat) ← f.projection.origin
  return { type := f.projection.typeName
           center := (deg rlon, deg rlat)
           orientation := 0
           model := f.projection.model
           x0 := f.bounding.x0
           y0 := f.bounding.y0
           x1 := f.bounding.x1
           y1 := f.bounding.y1 }

/-- frame.py:132-133: `Proj(c, r)` for the classes of projections. A number is not an ellipsoid: proj.py:105 cannot unpack it. -/
def construct (c : ℝ × ℝ) (r : ℝ) : ClassObj → Py Projection
  | .sphere k => .ok (.sphere k (Sphere.new (some c) (some r)))
  | .eMercator => .error .typeError
  | .conic => do
    let q ← Conic.new (some c) (some r)
    return .conic q

/-- frame.py:128-133: the module has no name `Ellipsoid`, so rebuilding an ellipsoid raises `NameError`. -/
def rebuild (cls : ClassObj) (c : ℝ × ℝ) : SavedModel → Py Projection
  | .ellipsoid _ _ _ _ => .error .nameError
  | .sphere r => construct c r cls

/-- frame.py:117-135 -/
def load (d : Saved) : Py Frame := do
  let bb := BBox.ofCorners (d.x0, d.y0) (d.x1, d.y1)
  let cls ← classOf d.type
  let prj ← rebuild cls d.center d.model
  return { projection := prj, bounding := bb }

end
end Frame
end Coral
