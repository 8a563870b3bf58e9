import Verif.Model.Stats

/-! # What the properties of `stats` say -/
namespace Coral
namespace Stats

variable {K : Type} [Field K] [LinearOrder K] [FloorRing K]

/-- The function without its decorator. -/
def bare (sqrt : K → K) : Fn → List (List K) → Py K
  | .max, [l] => pyMax l
  | .min, [l] => pyMin l
  | .sum, [l] => .ok l.sum
  | .len, [l] => .ok (l.length : K)
  | .avg, [l] => avg l
  | .var, [l] => var l
  | .stdDev, [l] => stdDev sqrt l
  | .covar, [l, l'] => covar l l'
  | .corr, [l, l'] => corr sqrt l l'
  | .giniKakwani, [l] => giniKakwani l
  | .giniDeaton, [l] => giniDeaton l
  | _, _ => .error .typeError

/-- What a history answers without caches. -/
def bareRun (sqrt : K → K) : List (Op K) → List (Option (Py K))
  | [] => []
  | .call f args :: ops => some (bare sqrt f args) :: bareRun sqrt ops
  | .clear :: ops => none :: bareRun sqrt ops

/-- The number of calls in the log. -/
def callsEver (f : Fn) : List Event → Nat
  | [] => 0
  | .call g :: log => (if g = f then 1 else 0) + callsEver f log
  | .clear :: log => callsEver f log

/-- The number of calls since the caches were cleared. -/
def callsSinceClear (f : Fn) : List Event → Nat
  | [] => 0
  | .call g :: log => (if g = f then 1 else 0) + callsSinceClear f log
  | .clear :: _ => 0

end Stats
end Coral
