import Verif.Model.Buffer

/-!
# Specification of a bounded double-ended queue
A plain list, oldest element first; independent of the ring buffer.
-/
namespace Coral

/-- One call on a queue holding `l` with capacity `n`. -/
def queueStep {α : Type} (n : Nat) (l : List α) : BufOp α → BufResp α × List α
  | .push o => if l.length < n then (.none, l ++ [o]) else (.err .assertionError, l)
  | .pop => match l.getLast? with
    | some x => (.val (some x), l.dropLast)
    | none => (.err .assertionError, l)
  | .peek => match l.getLast? with
    | some x => (.val (some x), l)
    | none => (.err .assertionError, l)
  | .shift => match l with
    | x :: l => (.val (some x), l)
    | [] => (.err .assertionError, [])
  | .isempty => (.bool l.isEmpty, l)
  | .isfull => (.bool (l.length == n), l)

/-- A sequence of calls. -/
def queueRun {α : Type} (n : Nat) (l : List α) : List (BufOp α) → List (BufResp α)
  | [] => []
  | op :: ops => let (r, l') := queueStep n l op; r :: queueRun n l' ops

end Coral
