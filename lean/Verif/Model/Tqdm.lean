import Verif.PyDec
import Mathlib.Algebra.Order.Floor.Ring
import Mathlib.Algebra.Order.Field.Basic

/-!
# `coral/tqdm.py`

Times are exact numbers of an ordered field. The text of `'%5.2f' % rate` is a parameter: nothing is claimed about the rate.
-/
namespace Coral
namespace Tqdm

variable {K : Type} [Field K] [LinearOrder K] [FloorRing K]

/-- `int(x)`: toward zero. -/
def trunc (x : K) : Int := if 0 ≤ x then ⌊x⌋ else ⌈x⌉

/-- tqdm.py:29-35 `format_interval`; `divmod` by a positive number rounds down. -/
def formatInterval (t : K) : Str :=
  let mins := trunc t / 60
  let s := trunc t % 60
  let h := mins / 60
  let m := mins % 60
  if h ≠ 0 then decInt h ++ ':' :: (pad2 m ++ ':' :: pad2 s)
  else pad2 m ++ ':' :: pad2 s

/-- `"%3d" % n` -/
def d3 (n : Int) : Str := rjust 3 (decInt n)

/-- tqdm.py:38-63 `format_meter`; `rate` is `'%5.2f'`. Comparing `n > None` raises `TypeError`. -/
def formatMeter (rate : K → Str) (n : Nat) (total : Option Int) (elapsed : K) : Py Str :=
  match total with
  | none => .error .typeError
  | some total =>
    let total : Option Int := if (n : Int) > total then none else some total
    let elapsedStr := formatInterval elapsed
    let rateStr := if elapsed ≠ 0 then rate (n / elapsed) else "?".toList
    match total with
    | none => .ok (decNat n ++ " [elapsed: ".toList ++ elapsedStr ++ ", ".toList ++ rateStr ++ " iters/sec]".toList)
    | some total =>
      if total ≠ 0 then
        let frac : K := n / total
        let barLength := trunc (frac * 10)
        let bar := List.replicate barLength.toNat '#' ++ List.replicate (10 - barLength).toNat '-'
        let percentage := d3 (trunc (frac * 100)) ++ ['%']
        let leftStr := if n ≠ 0 then formatInterval (elapsed / n * ((total - n : Int) : K)) else "?".toList
        .ok ('|' :: (bar ++ "| ".toList ++ decNat n ++ '/' :: decInt total ++ ' ' :: percentage ++ " [elapsed: ".toList ++ elapsedStr ++
          " left: ".toList ++ leftStr ++ ", ".toList ++ rateStr ++ " iters/sec]".toList))
      else .ok (decNat n ++ " [elapsed: ".toList ++ elapsedStr ++ ", ".toList ++ rateStr ++ " iters/sec]".toList)

/-- tqdm.py:66-74 `StatusPrinter`: what was written to the file, and `last_printed_len`. -/
structure Printer where
  written : Str
  lastLen : Nat
  deriving DecidableEq

def Printer.new (written : Str) : Printer := ⟨written, 0⟩

/-- tqdm.py:71-74. -/
def Printer.printStatus (p : Printer) (s : Str) : Printer :=
  ⟨p.written ++ '\r' :: (s ++ List.replicate (p.lastLen - s.length) ' '), s.length⟩

/-- What `next()` gives: a value, the end, or an exception. -/
inductive Next (α : Type) where
  | value (a : α) | stop | raise (e : PyErr)
  deriving DecidableEq

/-- The arguments of `tqdm`, and the world: `items i` is what the `i`-th `next()` of the iterator gives, `len` is `len(iterable)` or
`none` if it raises `TypeError`, `clock i` is the `i`-th `time.time()`. -/
structure Call (K α : Type) where
  items : Nat → Next α
  len : Option Nat
  desc : Str
  total : Option Int
  leave : Bool
  mininterval : K
  miniters : Int
  rate : K → Str
  clock : Nat → K

/-- The local variables, the clock readings so far, and what was written to `sys.stdout`. -/
structure Vars (K : Type) where
  sp : Printer
  startT : K
  lastT : K
  lastN : Nat
  n : Nat
  ticks : Nat
  stdout : Str

/-- The generator: before the first `next()`, suspended at `yield`, or finished; what was written is kept. -/
inductive Gen (K : Type) where
  | fresh
  | suspended (v : Vars K)
  | closed (file stdout : Str)

/-- tqdm.py:93-97. -/
def Call.total' {α : Type} (c : Call K α) : Option Int :=
  match c.total with
  | some t => some t
  | none => c.len.map (fun n => (n : Int))

/-- tqdm.py:99. -/
def Call.prefix {α : Type} (c : Call K α) : Str := if c.desc ≠ [] then c.desc ++ ": ".toList else []

/-- tqdm.py:119-126: after the loop. -/
def Call.finish {α : Type} (c : Call K α) (v : Vars K) : Next α × Gen K :=
  if ¬ c.leave then (.stop, .closed (v.sp.printStatus []).written (v.stdout ++ ['\r']))
  else if v.lastN < v.n then
    match formatMeter c.rate v.n c.total' (c.clock v.ticks - v.startT) with
    | .error e => (.raise e, .closed v.sp.written v.stdout)
    | .ok s => (.stop, .closed ((v.sp.printStatus (c.prefix ++ s)).written ++ ['\n']) v.stdout)
  else (.stop, .closed (v.sp.written ++ ['\n']) v.stdout)

/-- tqdm.py:107-108: the head of the loop. -/
def Call.pull {α : Type} (c : Call K α) (v : Vars K) : Next α × Gen K :=
  match c.items v.n with
  | .value a => (.value a, .suspended v)
  | .stop => c.finish v
  | .raise e => (.raise e, .closed v.sp.written v.stdout)

/-- tqdm.py:110-117: the rest of the body, once resumed. -/
def Call.body {α : Type} (c : Call K α) (v : Vars K) : Py (Vars K) :=
  let v := { v with n := v.n + 1 }
  if (v.n : Int) - v.lastN ≥ c.miniters then
    let cur := c.clock v.ticks
    let v := { v with ticks := v.ticks + 1 }
    if cur - v.lastT ≥ c.mininterval then do
      let s ← formatMeter c.rate v.n c.total' (cur - v.startT)
      return { v with sp := v.sp.printStatus (c.prefix ++ s), lastN := v.n, lastT := cur }
    else .ok v
  else .ok v

/-- One `next()` on the generator, tqdm.py:77-126. -/
def Call.next {α : Type} (c : Call K α) : Gen K → Next α × Gen K
  | .fresh =>
    match formatMeter c.rate 0 c.total' (0 : K) with
    | .error e => (.raise e, .closed [] [])
    | .ok s => c.pull ⟨(Printer.new []).printStatus (c.prefix ++ s), c.clock 0, c.clock 0, 0, 0, 1, []⟩
  | .suspended v =>
    match c.body v with
    | .error e => (.raise e, .closed v.sp.written v.stdout)
    | .ok v => c.pull v
  | .closed f o => (.stop, .closed f o)

/-- The generator after `k` calls of `next()`. -/
def Call.after {α : Type} (c : Call K α) : Nat → Gen K
  | 0 => .fresh
  | k + 1 => (c.next (c.after k)).2

/-- What the `k`-th call of `next()` gives. -/
def Call.result {α : Type} (c : Call K α) (k : Nat) : Next α := (c.next (c.after k)).1

/-- What has been written to `file`. -/
def Gen.file : Gen K → Str
  | .fresh => []
  | .suspended v => v.sp.written
  | .closed f _ => f

/-- tqdm.py:129-136 `trange(n)`: the items and the length of `range(n)`. -/
def trangeItems (n : Nat) : Nat → Next Int := fun i => if i < n then .value i else .stop

end Tqdm
end Coral
