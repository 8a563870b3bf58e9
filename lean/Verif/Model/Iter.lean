import Verif.Model.Dbf
import Verif.Model.Shapefile

/-!
# Model of the iterators of `coral/shapefile.py`

A generator keeps its place in the program, not in the file: the position is that of the file object, which all methods of the
reader share.
-/
namespace Coral
namespace Shapefile
variable {D : Type} [Double D]

/-- Where a generator stands: not started, at a `yield`, or ended. -/
inductive Gen
  | fresh
  | running
  | finished
  deriving DecidableEq

/-- shapefile.py:443-451: `next()` on the generator `iterShapes()`; `none` is the end. -/
def Reader.iterNext (r : Reader D) (g : Gen) : Py (Reader D × Gen × Option (Shapefile.Shape D)) :=
  if g = .finished then .ok (r, .finished, none)
  else
    let r := if g = .fresh then { r with pos := 100 } else r
    if r.pos < r.shp.length then do
      let (s, next) ← shapeAt r.noM r.shp r.pos
      return ({ r with pos := next }, .running, some s)
    else .ok (r, .finished, none)

/-- `for s in r.iterShapes(): body`, from round `n` on: the shapes the body gets. The body may use the reader, which is what it
returns; it knows the number of the round. -/
inductive ForShapes (body : Nat → Shape D → Reader D → Py (Reader D) → Prop) : Nat → Reader D → Gen → Py (List (Shape D)) → Prop
  | stop {n r g r' g'} : Reader.iterNext r g = .ok (r', g', none) → ForShapes body n r g (.ok [])
  | raise {n r g e} : Reader.iterNext r g = .error e → ForShapes body n r g (.error e)
  | inner {n r g r' g' s e} : Reader.iterNext r g = .ok (r', g', some s) → body n s r' (.error e) → ForShapes body n r g (.error e)
  | step {n r g r' g' s r'' res} : Reader.iterNext r g = .ok (r', g', some s) → body n s r' (.ok r'') →
      ForShapes body (n + 1) r'' g' res → ForShapes body n r g (res.map (s :: ·))

/-- A body that calls `r.shape(i)` in round `n`, with `i = f n`. -/
def lookup (f : Nat → Int) (n : Nat) (_ : Shape D) (r : Reader D) (res : Py (Reader D)) : Prop :=
  ∃ res', Reader.Shape r (f n) res' ∧ res = res'.map Prod.fst

/-- shapefile.py:570-574 `shapeRecord(i)`, for a reader whose two parts are `r` and `d`; `numRecords` is shared. -/
inductive ShapeRecord {F : Type} (pyFloat : List Byte → Py F) (r : Reader D) (d : Dbf.Reader) (i : Int) :
    Py (Shape D × Option (List (Dbf.Value F))) → Prop
  | range {e} : restrictIndex r.numRecords i = .error e → ShapeRecord pyFloat r d i (.error e)
  | shape {j e} : restrictIndex r.numRecords i = .ok j → Reader.Shape r j (.error e) → ShapeRecord pyFloat r d i (.error e)
  | both {j r' s} : restrictIndex r.numRecords i = .ok j → Reader.Shape r j (.ok (r', s)) →
      ShapeRecord pyFloat r d i ((d.record pyFloat j).map (fun x => (s, x.2)))

end Shapefile

namespace Dbf
variable {F : Type} (pyFloat : List Byte → Py F)

/-- Where the generator `iterRecords()` stands; at a `yield`, how often the loop is still to run. -/
inductive Gen
  | fresh
  | running (left : Nat)
  | finished
  deriving DecidableEq

/-- shapefile.py:565-568: the loop up to the next `yield`. -/
def Reader.iterLoop : Nat → Reader → Py (Reader × Gen × Option (List (Value F)))
  | 0, r => .ok (r, .finished, none)
  | k + 1, r => do
    let (r, x) ← r.next pyFloat
    match x with
    | some (v :: vs) => return (r, .running k, some (v :: vs))
    | _ => iterLoop k r

/-- shapefile.py:558-568: `next()` on the generator `iterRecords()`. -/
def Reader.iterNext (r : Reader) (g : Gen) : Py (Reader × Gen × Option (List (Value F))) :=
  match g with
  | .finished => .ok (r, .finished, none)
  | .running k => Reader.iterLoop pyFloat k r
  | .fresh => do
    let r ← r.again
    let r ← r.length
    Reader.iterLoop pyFloat r.numRecords { r with pos := r.headerLength }

/-- `for x in r.iterRecords(): body`, from round `n` on: the records the body gets. -/
inductive ForRecords (body : Nat → List (Value F) → Reader → Py Reader) : Nat → Reader → Gen → Py (List (List (Value F))) → Prop
  | stop {n r g r' g'} : Reader.iterNext pyFloat r g = .ok (r', g', none) → ForRecords body n r g (.ok [])
  | raise {n r g e} : Reader.iterNext pyFloat r g = .error e → ForRecords body n r g (.error e)
  | inner {n r g r' g' x e} : Reader.iterNext pyFloat r g = .ok (r', g', some x) → body n x r' = .error e → ForRecords body n r g (.error e)
  | step {n r g r' g' x r'' res} : Reader.iterNext pyFloat r g = .ok (r', g', some x) → body n x r' = .ok r'' →
      ForRecords body (n + 1) r'' g' res → ForRecords body n r g (res.map (x :: ·))

/-- A body that calls `r.record(i)` in round `n`, with `i = f n`. -/
def lookup (f : Nat → Int) (n : Nat) (_ : List (Value F)) (r : Reader) : Py Reader := (r.record pyFloat (f n)).map Prod.fst

end Dbf
end Coral
