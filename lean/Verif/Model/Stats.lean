import Verif.Py
import Verif.PySort
import Mathlib.Algebra.Order.Field.Basic
import Mathlib.Algebra.Order.Floor.Ring

/-!
# Model of `coral/stats.py`

Numbers are elements of an ordered field, computed exactly; `math.sqrt` is a parameter. Sequences are tuples, as the
decorated functions need hashable arguments.

The module is modelled twice: the bare functions (`Stats.avg`, ...), and the decorated ones (`Stats.mAvg`, ...) with all
their caches as a state. The caches are those of `functools.lru_cache` in CPython 3.5 and later.
-/
namespace Coral
namespace Stats

variable {K : Type} [Field K] [LinearOrder K] [FloorRing K]

/-- `a / b`, with `ZeroDivisionError`. -/
def div (a b : K) : Py K := if b = 0 then .error .zeroDivisionError else .ok (a / b)

/-! ### The functions without the decorator -/

/-- stats.py:36-38 -/
def avg (seq : List K) : Py K := div seq.sum (seq.length : K)

/-- stats.py:40-43 -/
def var (seq : List K) : Py K := do
  let u ← avg seq
  div (seq.map (fun x => (x - u) * (x - u))).sum (seq.length : K)

/-- `math.sqrt(x)` -/
def pySqrt (sqrt : K → K) (x : K) : Py K := if x < 0 then .error .valueError else .ok (sqrt x)

/-- stats.py:45-47 -/
def stdDev (sqrt : K → K) (seq : List K) : Py K := do
  let v ← var seq
  pySqrt sqrt v

/-- stats.py:54-58: the loop of `covar`. -/
def covarLoop (seq1 seq2 : List K) (n u1 u2 : K) : Py K :=
  (List.range (⌊n⌋).toNat).foldlM (fun cov (i : Nat) => do
    let x ← pyIndex seq1 i
    let a := x - u1
    let y ← pyIndex seq2 i
    let b := y - u2
    let q ← div (a * b) n
    return cov + q) 0

/-- stats.py:49-59 -/
def covar (seq1 seq2 : List K) : Py K := do
  let n := (seq1.length : K)
  let u1 ← avg seq1
  let u2 ← avg seq2
  covarLoop seq1 seq2 n u1 u2

/-- stats.py:61-63 -/
def corr (sqrt : K → K) (seq1 seq2 : List K) : Py K := do
  let c ← covar seq1 seq2
  let s1 ← stdDev sqrt seq1
  let s2 ← stdDev sqrt seq2
  div c (s1 * s2)

/-- stats.py:71-77: `gini_kakwani` from the loops on. -/
def kakwaniLoop (seq : List K) (n u : K) : Py K := do
  let m := (⌊n⌋).toNat
  let s ← (List.range m).foldlM (fun s (i : Nat) => (List.range' (i + 1) (m - (i + 1))).foldlM (fun s (j : Nat) => do
    let a ← pyIndex seq (i : Nat)
    let b ← pyIndex seq (j : Nat)
    return s + |a - b|) s) 0
  let us ← div (2 * s) (n * (n - 1))
  div us (2 * u)

/-- stats.py:67-77 -/
def giniKakwani (seq : List K) : Py K := do
  let n := (seq.length : K)
  let u ← avg seq
  kakwaniLoop seq n u

/-- stats.py:86-90: `gini_deaton` from the sorting on. -/
def deatonLoop (seq : List K) (n u s : K) : Py K := do
  let seq := sortBy (fun x => -x) seq
  let s := seq.zipIdx.foldl (fun s p => s + (p.2 : K) * p.1) s
  let q ← div (n + 1) (n - 1)
  let r ← div (2 * s) (n * (n - 1) * u)
  return q - r

/-- stats.py:81-90 -/
def giniDeaton (seq : List K) : Py K := do
  let n := (seq.length : K)
  let u ← avg seq
  let s := seq.sum
  deatonLoop seq n u s

/-- The built-in `max` of a sequence. -/
def pyMax : List K → Py K
  | [] => .error .valueError
  | x :: l => .ok (l.foldl max x)

/-- The built-in `min` of a sequence. -/
def pyMin : List K → Py K
  | [] => .error .valueError
  | x :: l => .ok (l.foldl min x)

/-! ### The decorated functions -/

/-- The decorated functions. -/
inductive Fn where
  | max | min | sum | len | avg | var | stdDev | covar | corr | giniKakwani | giniDeaton
  deriving DecidableEq, Repr

/-- stats.py:29-82: the argument `maxsize`, which is 128 if not given. -/
def maxsize : Fn → Nat
  | .max | .min | .sum | .len | .avg => 128
  | .var | .stdDev => 64
  | .covar => 32
  | .corr | .giniKakwani | .giniDeaton => 16

/-- An argument: a tuple, or a generator object. Generators have an identity. -/
inductive Arg (K : Type) where
  | tuple (l : List K)
  | gen (id : Nat) (l : List K)

/-- `==` on arguments: tuples by their contents, generators by identity. -/
def Arg.eq : Arg K → Arg K → Bool
  | .tuple l, .tuple l' => decide (l = l')
  | .gen i _, .gen j _ => decide (i = j)
  | _, _ => false

/-- `==` on the keys that `lru_cache` makes of the arguments. -/
def argsEq : List (Arg K) → List (Arg K) → Bool
  | [], [] => true
  | a :: as, b :: bs => a.eq b && argsEq as bs
  | _, _ => false

/-- The cache of one decorated function, most recently used first. -/
structure Cache (K : Type) where
  entries : List (List (Arg K) × K)
  hits : Nat
  misses : Nat

/-- Things that happen to the caches. -/
inductive Event where
  | call (f : Fn)
  | clear
  deriving DecidableEq, Repr

/-- The caches, the identity of the next generator, and (for the statements only) what has happened, latest first. -/
structure State (K : Type) where
  caches : Fn → Cache K
  next : Nat
  log : List Event

/-- When the module has just been imported. -/
def State.init : State K := ⟨fun _ => ⟨[], 0, 0⟩, 0, []⟩

/-- Replace one cache. -/
def State.setCache (st : State K) (f : Fn) (c : Cache K) : State K :=
  { st with caches := fun g => if g = f then c else st.caches g }

/-- Computations that use the caches. -/
def SM (K α : Type) : Type := State K → Py α × State K

/-- Sequencing; an exception keeps the state. -/
protected def SM.bind {α β : Type} (m : SM K α) (k : α → SM K β) : SM K β := fun st =>
  match m st with
  | (.ok a, st') => k a st'
  | (.error e, st') => (.error e, st')

instance : Monad (SM K) where
  pure a := fun st => (.ok a, st)
  bind := SM.bind

/-- A computation that does not touch the caches. -/
def SM.lift {α : Type} (x : Py α) : SM K α := fun st => (x, st)

/-- `functools.lru_cache(maxsize)(body)`: an equal key is a hit and becomes the most recent; otherwise the function is called
and its result, if there is one, stored, with the least recent entry dropped from a full cache. -/
def memo (f : Fn) (body : List (Arg K) → SM K K) (args : List (Arg K)) : SM K K := fun st =>
  let st := { st with log := .call f :: st.log }
  let c := st.caches f
  match c.entries.find? (fun e => argsEq e.1 args) with
  | some e =>
    (.ok e.2, st.setCache f ⟨e :: c.entries.eraseP (fun e => argsEq e.1 args), c.hits + 1, c.misses⟩)
  | none =>
    match body args (st.setCache f ⟨c.entries, c.hits, c.misses + 1⟩) with
    | (.error x, st) => (.error x, st)
    | (.ok v, st) =>
      let c := st.caches f
      (.ok v, st.setCache f ⟨((args, v) :: c.entries).take (maxsize f), c.hits, c.misses⟩)

/-- A generator expression: a new object. -/
def newGen (l : List K) : SM K (Arg K) := fun st => (.ok (.gen st.next l), { st with next := st.next + 1 })

/-- stats.py:31 -/
def mMax : List (Arg K) → SM K K := memo .max (fun args => .lift (match args with
  | [.tuple l] => pyMax l
  | _ => .error .typeError))

/-- stats.py:32 -/
def mMin : List (Arg K) → SM K K := memo .min (fun args => .lift (match args with
  | [.tuple l] => pyMin l
  | _ => .error .typeError))

/-- stats.py:33. `math.fsum` takes any iterable. -/
def mSum : List (Arg K) → SM K K := memo .sum (fun args => .lift (match args with
  | [.tuple l] => .ok l.sum
  | [.gen _ l] => .ok l.sum
  | _ => .error .typeError))

/-- stats.py:34 -/
def mLen : List (Arg K) → SM K K := memo .len (fun args => .lift (match args with
  | [.tuple l] => .ok (l.length : K)
  | _ => .error .typeError))

/-- stats.py:36-38 -/
def mAvg : List (Arg K) → SM K K := memo .avg (fun args => match args with
  | [.tuple seq] => do
    let s ← mSum [.tuple seq]
    let n ← mLen [.tuple seq]
    .lift (div s n)
  | _ => .lift (.error .typeError))

/-- stats.py:40-43 -/
def mVar : List (Arg K) → SM K K := memo .var (fun args => match args with
  | [.tuple seq] => do
    let u ← mAvg [.tuple seq]
    let g ← newGen (seq.map (fun x => (x - u) * (x - u)))
    let s ← mSum [g]
    let n ← mLen [.tuple seq]
    .lift (div s n)
  | _ => .lift (.error .typeError))

/-- stats.py:45-47 -/
def mStdDev (sqrt : K → K) : List (Arg K) → SM K K := memo .stdDev (fun args => match args with
  | [.tuple seq] => do
    let v ← mVar [.tuple seq]
    .lift (pySqrt sqrt v)
  | _ => .lift (.error .typeError))

/-- stats.py:49-59 -/
def mCovar : List (Arg K) → SM K K := memo .covar (fun args => match args with
  | [.tuple seq1, .tuple seq2] => do
    let n ← mLen [.tuple seq1]
    let u1 ← mAvg [.tuple seq1]
    let u2 ← mAvg [.tuple seq2]
    .lift (covarLoop seq1 seq2 n u1 u2)
  | _ => .lift (.error .typeError))

/-- stats.py:61-63 -/
def mCorr (sqrt : K → K) : List (Arg K) → SM K K := memo .corr (fun args => match args with
  | [.tuple seq1, .tuple seq2] => do
    let c ← mCovar [.tuple seq1, .tuple seq2]
    let s1 ← mStdDev sqrt [.tuple seq1]
    let s2 ← mStdDev sqrt [.tuple seq2]
    .lift (div c (s1 * s2))
  | _ => .lift (.error .typeError))

/-- stats.py:67-77 -/
def mGiniKakwani : List (Arg K) → SM K K := memo .giniKakwani (fun args => match args with
  | [.tuple seq] => do
    let n ← mLen [.tuple seq]
    let u ← mAvg [.tuple seq]
    .lift (kakwaniLoop seq n u)
  | _ => .lift (.error .typeError))

/-- stats.py:81-90 -/
def mGiniDeaton : List (Arg K) → SM K K := memo .giniDeaton (fun args => match args with
  | [.tuple seq] => do
    let n ← mLen [.tuple seq]
    let u ← mAvg [.tuple seq]
    let s ← mSum [.tuple seq]
    .lift (deatonLoop seq n u s)
  | _ => .lift (.error .typeError))

/-- A function of the module, by name. -/
def call (sqrt : K → K) : Fn → List (Arg K) → SM K K
  | .max => mMax
  | .min => mMin
  | .sum => mSum
  | .len => mLen
  | .avg => mAvg
  | .var => mVar
  | .stdDev => mStdDev sqrt
  | .covar => mCovar
  | .corr => mCorr sqrt
  | .giniKakwani => mGiniKakwani
  | .giniDeaton => mGiniDeaton

/-- stats.py:92 -/
def memos : List Fn := [.sum, .len, .avg, .var, .stdDev, .covar, .corr, .giniKakwani, .giniDeaton]

/-- stats.py:96-98 -/
def cacheClear (st : State K) : State K :=
  let st := { st with log := .clear :: st.log }
  memos.foldl (fun st f => st.setCache f ⟨[], 0, 0⟩) st

/-- stats.py:94 -/
structure CacheInfo where
  hits : Nat
  misses : Nat
  maxsize : Nat
  currsize : Nat
  deriving DecidableEq, Repr

/-- stats.py:100-108 -/
def cacheInfo (st : State K) : CacheInfo :=
  memos.foldl (fun t f => ⟨t.hits + (st.caches f).hits, t.misses + (st.caches f).misses, t.maxsize + maxsize f,
    t.currsize + (st.caches f).entries.length⟩) ⟨0, 0, 0, 0⟩

/-- What a user of the module can do. -/
inductive Op (K : Type) where
  | call (f : Fn) (args : List (List K))
  | clear

/-- Do it. -/
def step (sqrt : K → K) (st : State K) : Op K → Option (Py K) × State K
  | .call f args =>
    let r := call sqrt f (args.map .tuple) st
    (some r.1, r.2)
  | .clear => (none, cacheClear st)

/-- A whole history: the answers, and the caches at the end. -/
def run (sqrt : K → K) (st : State K) : List (Op K) → List (Option (Py K)) × State K
  | [] => ([], st)
  | op :: ops =>
    let r := step sqrt st op
    let rs := run sqrt r.2 ops
    (r.1 :: rs.1, rs.2)

end Stats
end Coral
