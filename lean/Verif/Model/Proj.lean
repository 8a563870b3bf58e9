import Verif.PyReal
import Mathlib.Analysis.SpecialFunctions.Pow.Real

/-!
# Model of `coral/proj.py`

Over the real numbers, see `Verif/PyReal.lean`. The projections raise in the order in which the code evaluates;
`scale` of the Eckert IV, stereographic and azimuthal projections only raises (proj.py:254-255, 297-298, 345-346, 388-389).
-/
namespace Coral
namespace Proj

open Real

noncomputable section

/-- Terminating executions of `while cond: body` where the body may raise. -/
inductive PyWhile {S : Type} (cond : S → Prop) (body : S → Py S) : S → Py S → Prop
  | done {s} : ¬ cond s → PyWhile cond body s (.ok s)
  | step {s s' t} : cond s → body s = .ok s' → PyWhile cond body s' t → PyWhile cond body s t
  | raise {s e} : cond s → body s = .error e → PyWhile cond body s (.error e)

/-- proj.py:28-34 `corangle`, the two loops. -/
def Corangle (a b : ℝ) : Prop :=
  ∃ m, While (fun x => x < -π) (fun x => x + 2 * π) a m ∧ While (fun x => x > π) (fun x => x - 2 * π) m b

/-- What `corangle(a)` returns (the loops end, see `C15_terminates`). -/
def corangle (a : ℝ) : ℝ := Classical.epsilon (Corangle a)

/-! ### Parameters -/

/-- proj.py:40-44 `Ellipsoid` -/
structure Ellipsoid where
  a : ℝ
  b : ℝ
  e : ℝ
  f : ℝ

/-- proj.py:47-54 `WGS84` -/
def wgs84 : Ellipsoid :=
  let a : ℝ := 6378137
  let f : ℝ := 1 / 298.257223563
  { a := a, b := a * (1 - f), e := √(2 * f - f * f), f := f }

/-- proj.py:57-64 `GRS80` -/
def grs80 : Ellipsoid :=
  let a : ℝ := 6378137
  let f : ℝ := 1 / 298.257222101
  { a := a, b := a * (1 - f), e := √(2 * f - f * f), f := f }

/-- proj.py:67-78, the attributes of a `Proj`; angles in radians. -/
structure Sphere where
  lon0 : ℝ
  lat0 : ℝ
  r : ℝ

/-- proj.py:69-78 `Proj.__init__` -/
def Sphere.new (origin : Option (ℝ × ℝ)) (radius : Option ℝ) : Sphere :=
  { lon0 := rad ((origin.getD (0, 0)).1)
    lat0 := rad ((origin.getD (0, 0)).2)
    r := radius.getD ((wgs84.a + wgs84.b) / 2) }

/-- proj.py:93-105, the attributes of an `EProj`. -/
structure Spheroid where
  lon0 : ℝ
  lat0 : ℝ
  ell : Ellipsoid

/-- proj.py:95-105 `EProj.__init__` -/
def Spheroid.new (origin : Option (ℝ × ℝ)) (ellipsoid : Option Ellipsoid) : Spheroid :=
  { lon0 := rad ((origin.getD (0, 0)).1)
    lat0 := rad ((origin.getD (0, 0)).2)
    ell := ellipsoid.getD wgs84 }

/-! ### Mercator -/

/-- proj.py:110-116 -/
def Mercator.geo2rect (p : Sphere) (lon lat : ℝ) : Py (ℝ × ℝ) :=
  if lat = -90 then .error .projectionError
  else do
    let t ← rtan (π / 4 + rad lat / 2)
    let l ← rlog t
    return (p.r * corangle (rad lon - p.lon0), p.r * l)

/-- proj.py:118-122 -/
def Mercator.rect2geo (p : Sphere) (x y : ℝ) : Py (ℝ × ℝ) := do
  let xr ← rdiv x p.r
  let yr ← rdiv y p.r
  return (deg (corangle (xr + p.lon0)), deg (arctan (sinh yr)))

/-- proj.py:124-127 -/
def Mercator.scale (_p : Sphere) (_lon lat : ℝ) : Py ℝ := rdiv 1 (cos (rad lat))

/-! ### Mercator for the ellipsoid; `0 ≤ e < 1` is assumed, so the quotient is positive and the power is real. -/

/-- proj.py:137,139 and 151-152: the factor for the eccentricity. -/
def EMercator.factor (e lat : ℝ) : ℝ := ((1 - e * sin lat) / (1 + e * sin lat)) ^ (e / 2)

/-- proj.py:132-143 -/
def EMercator.geo2rect (p : Spheroid) (lon lat : ℝ) : Py (ℝ × ℝ) :=
  if lat = -90 then .error .projectionError
  else do
    let t ← rtan (π / 4 + rad lat / 2)
    let l ← rlog (t * EMercator.factor p.ell.e (rad lat))
    return (p.ell.a * corangle (rad lon - p.lon0), p.ell.a * l)

/-- proj.py:151-153: the next latitude. -/
def EMercator.improve (e t l0 : ℝ) : ℝ := π / 2 - 2 * arctan (t * EMercator.factor e l0)

/-- proj.py:148-155: the loop ends with this latitude. -/
def EMercator.Loop (e t lat : ℝ) : Prop :=
  While (fun s : ℝ × Bool => s.2 = false) (fun s => (EMercator.improve e t s.1, decide (EMercator.improve e t s.1 = s.1))) (π / 2 - 2 * arctan t, false) (lat, true)

/-- proj.py:145-157: `rect2geo` returns this. -/
inductive EMercator.Rect2geo (p : Spheroid) (x y : ℝ) : Py (ℝ × ℝ) → Prop
  | zero : p.ell.a = 0 → EMercator.Rect2geo p x y (.error .zeroDivisionError)
  | ok {lat} : p.ell.a ≠ 0 → EMercator.Loop p.ell.e (exp (-y / p.ell.a)) lat →
      EMercator.Rect2geo p x y (.ok (deg (corangle (x / p.ell.a + p.lon0)), deg lat))

/-- proj.py:159-164 -/
def EMercator.scale (p : Spheroid) (_lon lat : ℝ) : Py ℝ := do
  let s ← rsqrt (1 - p.ell.e * p.ell.e * sin (rad lat) * sin (rad lat))
  rdiv s (cos (rad lat))

/-! ### Transverse Mercator -/

/-- proj.py:169-177 -/
def TransMercator.geo2rect (p : Sphere) (lon lat : ℝ) : Py (ℝ × ℝ) :=
  let b := cos (rad lat) * sin (rad lon - p.lon0)
  if b = -1 ∨ b = 1 then .error .projectionError
  else do
    let h ← ratanh b
    let t ← rtan (rad lat)
    return (p.r * h, p.r * corangle (atan2 t (cos (rad lon - p.lon0)) - p.lat0))

/-- proj.py:179-184 -/
def TransMercator.rect2geo (p : Sphere) (x y : ℝ) : Py (ℝ × ℝ) := do
  let yr ← rdiv y p.r
  let xr ← rdiv x p.r
  let d := yr + p.lat0
  let q ← rdiv (sin d) (cosh xr)
  let lat ← rasin q
  return (deg (p.lon0 + atan2 (sinh xr) (cos d)), deg lat)

/-- proj.py:186-190 -/
def TransMercator.scale (p : Sphere) (lon lat : ℝ) : Py ℝ := do
  let b := cos (rad lat) * sin (rad lon - p.lon0)
  let s ← rsqrt (1 - b * b)
  rdiv 1 s

/-! ### Oblique Mercator -/

/-- proj.py:195-203 -/
def ObliqMercator.geo2rect (p : Sphere) (lon lat : ℝ) : Py (ℝ × ℝ) := do
  let c := cos p.lat0
  let s := sin p.lat0
  let a := s * sin (rad lat) - c * cos (rad lat) * sin (rad lon - p.lon0)
  let t ← rtan (rad lat)
  let v := t * c + s * sin (rad lon - p.lon0)
  let h := cos (rad lon - p.lon0)
  let q ← rdiv v h
  let y ← ratanh a
  return (p.r * arctan q, p.r * y)

/-- proj.py:205-213 -/
def ObliqMercator.rect2geo (p : Sphere) (x y : ℝ) : Py (ℝ × ℝ) := do
  let c := cos p.lat0
  let s := sin p.lat0
  let xr ← rdiv x p.r
  let yr ← rdiv y p.r
  let q ← rdiv (c * sin xr) (cosh yr)
  let lat ← rasin (s * tanh yr + q)
  let v := s * sin xr - c * sinh yr
  let h := cos xr
  let w ← rdiv v h
  return (deg (p.lon0 + arctan w), deg lat)

/-- proj.py:215-220 -/
def ObliqMercator.scale (p : Sphere) (lon lat : ℝ) : Py ℝ := do
  let a := sin p.lat0 * sin (rad lat) - cos p.lat0 * cos (rad lat) * sin (rad lon - p.lon0)
  let s ← rsqrt (1 - a * a)
  rdiv 1 s

/-! ### Eckert IV -/

/-- proj.py:225 -/
def EckertIV.CX : ℝ := 2 / √(4 * π + π * π)

/-- proj.py:226 -/
def EckertIV.CY : ℝ := 2 * √(π / (4 + π))

/-- proj.py:227 -/
def EckertIV.C : ℝ := 2 + π / 2

/-- The variables of the loop. -/
structure EckertIV.State where
  theta : ℝ
  costheta : ℝ
  sintheta : ℝ
  delta : ℝ

/-- proj.py:235-240: one round. -/
def EckertIV.body (sinlat : ℝ) (s : EckertIV.State) : Py EckertIV.State := do
  let costheta := cos s.theta
  let sintheta := sin s.theta
  let num := s.theta + sintheta * costheta + 2 * sintheta - EckertIV.C * sinlat
  let den := 2 * costheta * (1 + costheta)
  let delta ← rdiv (-num) den
  return { theta := s.theta + delta, costheta := costheta, sintheta := sintheta, delta := delta }

/-- proj.py:231-240: the loop (the first round is always entered, the cosine and sine are not used before). -/
def EckertIV.Loop (lat : ℝ) : Py EckertIV.State → Prop :=
  PyWhile (fun s => |s.delta| > 1e-6) (EckertIV.body (sin lat)) { theta := lat / 2, costheta := 0, sintheta := 0, delta := 1 }

/-- proj.py:229-243: `geo2rect` returns this. -/
inductive EckertIV.Geo2rect (p : Sphere) (lon lat : ℝ) : Py (ℝ × ℝ) → Prop
  | ok {s} : EckertIV.Loop (rad lat) (.ok s) →
      EckertIV.Geo2rect p lon lat (.ok (EckertIV.CX * p.r * corangle (rad lon - p.lon0) * (1 + s.costheta), EckertIV.CY * p.r * s.sintheta))
  | raise {e} : EckertIV.Loop (rad lat) (.error e) → EckertIV.Geo2rect p lon lat (.error e)

/-- proj.py:245-252 -/
def EckertIV.rect2geo (p : Sphere) (x y : ℝ) : Py (ℝ × ℝ) := do
  let q ← rdiv y (EckertIV.CY * p.r)
  let theta ← rasin q
  let costheta := cos theta
  let sintheta := sin theta
  let dlon ← rdiv x (EckertIV.CX * p.r * (1 + costheta))
  let s ← rdiv (theta + sintheta * costheta + 2 * sintheta) EckertIV.C
  let lat ← rasin s
  return (deg (p.lon0 + dlon), deg lat)

/-! ### Azimuthal projections -/

/-- proj.py:266-271, 313-317 and 357-362: the cosine of the distance from the centre. -/
def cosDist (p : Sphere) (lon lat : ℝ) : ℝ := sin p.lat0 * sin (rad lat) + cos p.lat0 * cos (rad lat) * cos (rad lon - p.lon0)

/-- proj.py:272-274, 320-322, 363-365: the plane point at scale `k`. -/
def plane (p : Sphere) (k lon lat : ℝ) : ℝ × ℝ :=
  (p.r * k * (cos (rad lat) * sin (rad lon - p.lon0)),
    p.r * k * (cos p.lat0 * sin (rad lat) - sin p.lat0 * cos (rad lat) * cos (rad lon - p.lon0)))

/-- proj.py:283-292, 331-340, 374-383: the argument of `math.atan` in the three aspects. -/
def azimuthalQuot (p : Sphere) (x y d c : ℝ) : Py ℝ :=
  if p.lat0 = π / 2 then rdiv x (-y)
  else if p.lat0 = -π / 2 then rdiv x y
  else rdiv (x * sin c) (d * cos p.lat0 * cos c - y * sin p.lat0 * sin c)

/-- proj.py:280-295, 328-343, 371-386: the position of a plane point at angular distance `c`; `d` is its distance from the origin. -/
def azimuthal (p : Sphere) (x y d c : ℝ) : Py (ℝ × ℝ) := do
  let q ← azimuthalQuot p x y d c
  let s ← rdiv (y * sin c * cos p.lat0) d
  let lat ← rasin (cos c * sin p.lat0 + s)
  return (deg (p.lon0 + arctan q), deg lat)

/-- proj.py:265-275 -/
def Stereographic.geo2rect (p : Sphere) (lon lat : ℝ) : Py (ℝ × ℝ) := do
  let k ← rdiv 2 (1 + cosDist p lon lat)
  return plane p k lon lat

/-- proj.py:277-295 -/
def Stereographic.rect2geo (p : Sphere) (x y : ℝ) : Py (ℝ × ℝ) := do
  let d := √(x * x + y * y)
  let q ← rdiv d (2 * p.r)
  azimuthal p x y d (2 * arctan q)

/-- proj.py:308-323 -/
def AzimuthalEquidistant.geo2rect (p : Sphere) (lon lat : ℝ) : Py (ℝ × ℝ) :=
  if rad lon = p.lon0 ∧ rad lat = p.lat0 then .ok (0, 0)
  else do
    let c ← racos (cosDist p lon lat)
    let k ← rdiv c (sin c)
    return plane p k lon lat

/-- proj.py:325-343 -/
def AzimuthalEquidistant.rect2geo (p : Sphere) (x y : ℝ) : Py (ℝ × ℝ) := do
  let d := √(x * x + y * y)
  let c ← rdiv d p.r
  azimuthal p x y d c

/-- proj.py:356-366 -/
def AzimuthalEqualArea.geo2rect (p : Sphere) (lon lat : ℝ) : Py (ℝ × ℝ) := do
  let q ← rdiv 2 (1 + cosDist p lon lat)
  let k ← rsqrt q
  return plane p k lon lat

/-- proj.py:368-386 -/
def AzimuthalEqualArea.rect2geo (p : Sphere) (x y : ℝ) : Py (ℝ × ℝ) := do
  let d := √(x * x + y * y)
  let q ← rdiv d (2 * p.r)
  let h ← rasin q
  azimuthal p x y d (2 * h)

/-! ### Conic equal-area -/

/-- proj.py:80-91, 394-402: the attributes of a `ConicEqualArea`. -/
structure Conic where
  r : ℝ
  n : ℝ
  c : ℝ
  p0 : ℝ

/-- proj.py:82-91, 394-402 -/
def Conic.new (parallels : Option (ℝ × ℝ)) (radius : Option ℝ) : Py Conic := do
  let lat1 := rad ((parallels.getD (0, 0)).1)
  let lat2 := rad ((parallels.getD (0, 0)).2)
  let r := radius.getD ((wgs84.a + wgs84.b) / 2)
  let n := (sin lat1 + sin lat2) / 2
  let c := cos lat1 * cos lat1 + 2 * n * sin lat1
  let s ← rsqrt c
  let p0 ← rdiv (r * s) n
  return { r := r, n := n, c := c, p0 := p0 }

/-- proj.py:404-411 -/
def Conic.geo2rect (q : Conic) (lon lat : ℝ) : Py (ℝ × ℝ) := do
  let s ← rsqrt (q.c - 2 * q.n * sin (rad lat))
  let p ← rdiv (q.r * s) q.n
  let t := q.n * rad lon
  return (p * sin t, q.p0 - p * cos t)

/-- proj.py:413-425 -/
def Conic.rect2geo (q : Conic) (x y : ℝ) : Py (ℝ × ℝ) := do
  let p := √(x * x + (q.p0 - y) * (q.p0 - y))
  let t := if q.n < 0 then atan2 (-x) (-q.p0 - -y) else atan2 x (q.p0 - y)
  let lon ← rdiv t q.n
  let pnr ← rdiv (p * q.n) q.r
  let s ← rdiv (q.c - pnr * pnr) (2 * q.n)
  let lat ← rasin s
  return (deg lon, deg lat)

/-- proj.py:427-434 -/
def Conic.scale (q : Conic) (_lon lat : ℝ) : Py ℝ := do
  let s ← rsqrt (q.c - 2 * q.n * sin (rad lat))
  rdiv (cos (rad lat)) s

end

end Proj
end Coral
