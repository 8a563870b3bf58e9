import Verif.Model.Tqdm

/-! # What `tqdm` promises -/
namespace Coral
namespace Tqdm

/-- The `k`-th `next()` of a generator that passes on `items`: after the end or an exception there is nothing more. -/
def passedOn {α : Type} (items : Nat → Next α) (k : Nat) : Next α :=
  if (List.range k).all (fun j => match items j with | .value _ => true | _ => false) then items k else .stop

/-- A terminal: the row the cursor is in, the column of the cursor, and the rows above. -/
structure Term where
  above : List Str
  row : Str
  col : Nat
  deriving DecidableEq

/-- A character arrives: carriage return, line feed (which also returns), or a character that replaces the one under the cursor. -/
def Term.put (t : Term) (c : Char) : Term :=
  if c = '\r' then { t with col := 0 }
  else if c = '\n' then ⟨t.above ++ [t.row], [], 0⟩
  else { t with row := t.row.take t.col ++ List.replicate (t.col - t.row.length) ' ' ++ c :: t.row.drop (t.col + 1), col := t.col + 1 }

/-- The terminal after a text, from a blank line. -/
def Term.showing (s : Str) : Term := s.foldl Term.put ⟨[], [], 0⟩

/-- No control characters that move the cursor. -/
def OneLine (s : Str) : Prop := '\r' ∉ s ∧ '\n' ∉ s

/-- `s`, and blanks after it. -/
def Padded (row s : Str) : Prop := ∃ k, row = s ++ List.replicate k ' '

/-- The seconds a clock text stands for: `mm:ss`, or `h:mm:ss` with at least one hour. -/
def readClock (s : Str) : Option Nat :=
  match pySplit ':' s with
  | [m, s] =>
    match readNat m, readNat s with
    | some x, some y => if m.length = 2 ∧ s.length = 2 ∧ x < 60 ∧ y < 60 then some (60 * x + y) else none
    | _, _ => none
  | [h, m, s] =>
    match readNat h, readNat m, readNat s with
    | some z, some x, some y => if 0 < z ∧ m.length = 2 ∧ s.length = 2 ∧ x < 60 ∧ y < 60 then some (3600 * z + 60 * x + y) else none
    | _, _, _ => none
  | _ => none

end Tqdm
end Coral
