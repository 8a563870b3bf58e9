import Verif.Model.Rg

/-!
# What a RangeGrid data set has to hold
-/
namespace Coral
namespace Rg

/-- An id that the index file can hold: no space and no line break. -/
def IdOk (id : Str) : Prop := ' ' ∉ id ∧ '\n' ∉ id ∧ '\r' ∉ id

section
variable {K : Type} [Field K] [LinearOrder K] [FloorRing K]

/-- The row comes back as `out`: each value as the column itself decodes what it encoded (see C32, C36 for what that is). -/
def Back (cols : List (Column K)) (row out : List (GVal K)) : Prop :=
  cols.length ≤ row.length ∧ List.Forall₂ (fun (p : Column K × GVal K) x => ∃ d, p.1.encode p.2 = .ok d ∧ p.1.decode d = .ok x) (cols.zip row) out

/-- A `Writer` after a history of successful writes: the ids (given, or the number of entities before) and the segments, in order. -/
inductive Writer.Reaches (row : List Col) : List (Str × List (List (List (GVal K)))) → Writer K → Prop
  | new {w} : Writer.new row = .ok w → Writer.Reaches row [] w
  | write {es w w' segs id} : Writer.Reaches row es w → w.write segs id = (w', .ok ()) →
      Writer.Reaches row (es ++ [(id.getD (decNat es.length), segs)]) w'

/-- What reading should do, on a list of entities: an id leads to the first entity that has it; without one, the entity at the cursor is next. -/
def next {α : Type} (ents : List (Str × α)) (cursor : Nat) (call : Option Str) : Nat × Py α :=
  match call with
  | none => match ents[cursor]? with
    | some e => (cursor + 1, .ok e.2)
    | none => (cursor, .error .indexError)
  | some id => match ents.findIdx? (fun e => e.1 = id) with
    | some j => match ents[j]? with
      | some e => (j + 1, .ok e.2)
      | none => (cursor, .error .keyError)
    | none => (cursor, .error .keyError)

/-- All results of a history of calls. -/
def results {α : Type} (ents : List (Str × α)) : Nat → List (Option Str) → List (Py α)
  | _, [] => []
  | cursor, c :: cs => (next ents cursor c).2 :: results ents (next ents cursor c).1 cs

/-- The results of a history of calls of `read`. -/
def Reader.calls (r : Reader K) : List (Option Str) → List (Py (List (List (List (GVal K)))))
  | [] => []
  | c :: cs => (r.read c).2 :: Reader.calls (r.read c).1 cs

end

end Rg
end Coral
