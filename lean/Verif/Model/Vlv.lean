import Verif.Py

/-!
# Model of the variable-length integer and ASCII string codecs
`coral/pf.py` lines 76-121; `coral/rg.py` lines 89-122 repeats the integer functions verbatim.

Writing to a file is appending bytes; reading consumes from the front of the remaining bytes.
-/
namespace Coral

/-- pf.py:76-81 / rg.py:89-94, the loop: `digits = [v % 128] + digits; v >>= 7` while `v >= 128`. -/
def base128Loop (v : Nat) (digits : List Nat) : List Nat :=
  if 128 ≤ v then base128Loop (v >>> 7) (v % 128 :: digits) else v :: digits
termination_by v
decreasing_by
  rw [Nat.shiftRight_eq_div_pow]
  exact Nat.div_lt_self (by omega) (by decide)

/-- pf.py:76-81 / rg.py:89-94. -/
def base128 (v : Nat) : List Nat := base128Loop v []

/-- pf.py:83-87 / rg.py:96-100: every digit but the last is written with the top bit set.
Simplification: the argument is a natural number (Python would raise `ValueError` for a negative one). -/
def writevlv (v : Nat) : List Byte :=
  let ds := base128 v
  ds.dropLast.map (fun d => d ||| 0x80) ++ (ds.getLast?.toList)

/-- pf.py:89-94 / rg.py:102-107. -/
def writesvlv (v : Int) : List Byte :=
  (if v < 0 then [0xff] else [0x00]) ++ writevlv v.natAbs

/-- pf.py:101-106 / rg.py:110-115, the loop with accumulator `v`; `ord(b"")` at end of file raises `TypeError`. -/
def readvlvLoop (v : Nat) : List Byte → Py (Nat × List Byte)
  | [] => .error .typeError
  | d :: rest =>
    if d &&& 0x80 ≠ 0 then readvlvLoop ((v <<< 7) + (d &&& 0x7f)) rest
    else .ok ((v <<< 7) + d, rest)

/-- pf.py:100-107 / rg.py:109-116. -/
def readvlv (s : List Byte) : Py (Nat × List Byte) := readvlvLoop 0 s

/-- pf.py:109-113 / rg.py:118-122. -/
def readsvlv : List Byte → Py (Int × List Byte)
  | [] => .error .typeError
  | s :: rest => do
    let (v, rest) ← readvlv rest
    .ok (if s ≠ 0 then -(v : Int) else v, rest)

/-- pf.py:96-98: `v.encode("ascii")` raises `UnicodeEncodeError` for a code point above 127. A Python string is the
list of its code points. -/
def writeascii (v : List Nat) : Py (List Byte) :=
  if v.all (· < 128) then .ok (v ++ [0]) else .error .unicodeError

/-- pf.py:116-121, with the bytes collected so far in `bs`. At end of file `f.read(1)` returns `b""` for ever, which
differs from `b"\x00"`: the loop never ends. The result `hang` is that divergence (`readascii_loop_ends` and
`readascii_loop_diverges` in `Verif/Proofs/Vlv.lean` relate this function to the loop's big-step semantics). -/
def readasciiLoop (bs : List Byte) : List Byte → Res (List Nat × List Byte)
  | [] => .hang
  | b :: rest =>
    if b ≠ 0 then readasciiLoop (bs ++ [b]) rest
    else if bs.all (· < 128) then .ok (bs, rest) else .raise .unicodeError

/-- pf.py:115-121. -/
def readascii (s : List Byte) : Res (List Nat × List Byte) := readasciiLoop [] s

/-- pf.py:115-121 as a loop: state = (bytes collected, last `f.read(1)` result, remaining input). -/
def asciiBody (st : List Byte × Option Byte × List Byte) : List Byte × Option Byte × List Byte :=
  match st with
  | (bs, b, s) => (bs ++ b.toList, s.head?, s.tail)

/-- pf.py:118 the loop guard `b != b'\x00'` (`none` is `b""`). -/
def asciiCond (st : List Byte × Option Byte × List Byte) : Prop := st.2.1 ≠ some 0

end Coral
