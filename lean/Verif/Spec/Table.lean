import Verif.PyStr
import Verif.Model.Table

/-! # What the properties of `table` say -/
namespace Coral
namespace Table

/-- The cell of a row in the column named `k`. -/
def Row.At (r : Row) (k v : Str) : Prop := ∃ i : Nat, r.fields[i]? = some k ∧ r.values[i]? = some v

/-- A table: all rows have the same distinct, acceptable field names, and a value for each. -/
structure IsTable (okName : Str → Bool) (F : List Str) (t : List Row) : Prop where
  names : ∀ k ∈ F, okName k = true
  distinct : F.Nodup
  fields : ∀ r ∈ t, r.fields = F
  values : ∀ r ∈ t, r.values.length = F.length

/-- Text that a file can hold in a cell. -/
structure PlainText (sep comm : Char) (s : Str) : Prop where
  noSep : sep ∉ s
  noComm : comm ∉ s
  noBreak : ∀ c ∈ s, isBreak c = false
  noOuter : NoOuterSpace s

/-- Cells that a line can hold: plain texts, not all of the line blank, and nothing empty at the ends if the separator is
white space. -/
structure PlainLine (sep comm : Char) (cells : List Str) : Prop where
  plain : ∀ s ∈ cells, PlainText sep comm s
  nonblank : cells ≠ [] ∧ cells ≠ [[]]
  ends : isSpace sep = true → cells.head? ≠ some [] ∧ cells.getLast? ≠ some []

/-- The lines of a file that are not blank, without comments and outer white space. -/
def contentLines (comm : Char) (text : Str) : List Str :=
  ((splitlines text).map (fun l => strip ((pySplit comm l).headD []))).filter (fun l => decide (l ≠ []))

/-- The cell of a row, or "" if it has no such column. -/
def Row.AtOr (r : Row) (k v : Str) : Prop := r.At k v ∨ (k ∉ r.fields ∧ v = [])

/-- Two rows agree in the given columns. -/
def Agree (P : List Str) (r1 r2 : Row) : Prop := ∀ p ∈ P, ∀ v, r1.AtOr p v ↔ r2.AtOr p v

/-- The first row of `t2` that agrees with `r1`. -/
def FirstAgree (P : List Str) (t2 : List Row) (r1 r2 : Row) : Prop :=
  ∃ i : Nat, t2[i]? = some r2 ∧ Agree P r1 r2 ∧ ∀ j < i, ∀ r, t2[j]? = some r → ¬ Agree P r1 r

/-- The cell of the joined row: from the first agreeing row of `t2` if there is one and it has the column, otherwise from
the row of `t1`, otherwise empty. -/
def JoinCell (P : List Str) (t2 : List Row) (r1 : Row) (k v : Str) : Prop :=
  (∃ r2, FirstAgree P t2 r1 r2 ∧ (r2.At k v ∨ (k ∉ r2.fields ∧ r1.AtOr k v))) ∨
  ((∀ r2 ∈ t2, ¬ Agree P r1 r2) ∧ r1.AtOr k v)

end Table
end Coral
