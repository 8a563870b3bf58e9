import Verif.Model.FloatsB
import Verif.Model.Names

/-!
# Arithmetic on floats: inequality and likeness of names

As in `Model/Floats.lean`, every operation on floats is rounded (`fl`), and numbers are not infinite. Integers are exact, and so is `/` of two integers
but for one rounding.
-/
namespace Coral
namespace Flt

/-- stats.py:70-74: the double loop of `gini_kakwani`. -/
def kakwaniSum (seq : List ℚ) : Py ℚ :=
  (List.range seq.length).foldlM (fun s (i : Nat) => (List.range' (i + 1) (seq.length - (i + 1))).foldlM (fun s (j : Nat) => do
    let a ← pyIndex seq (i : Nat)
    let b ← pyIndex seq (j : Nat)
    return fl (s + |fl (a - b)|)) s) 0

/-- stats.py:66-77 `gini_kakwani` -/
def giniKakwani (seq : List ℚ) : Py ℚ := do
  let n : ℚ := seq.length
  let u ← avg seq
  let s ← kakwaniSum seq
  let us ← div (fl (2 * s)) (n * (n - 1))
  div us (fl (2 * u))

/-- stats.py:81-90 `gini_deaton` -/
def giniDeaton (seq : List ℚ) : Py ℚ := do
  let n : ℚ := seq.length
  let u ← avg seq
  let s := (sortBy (fun x => -x) seq).zipIdx.foldl (fun s p => fl (s + fl ((p.2 : ℚ) * p.1))) (fsum seq)
  let q ← div (n + 1) (n - 1)
  let r ← div (fl (2 * s)) (fl (n * (n - 1) * u))
  return fl (q - r)

/-- names.py:68-71 `strerr` -/
def strerr (s1 s2 : List Char) : Py ℚ := do
  let distance ← damlev s1 s2
  div ((distance : ℚ) * 2) (s1.length + s2.length : Nat)

/-- names.py:124-128 -/
def bestMatch (values : List (List Char)) (key : List Char) : Py Match := do
  let ds ← values.mapM (fun v => strerr key v)
  let i ← argmin ds
  let value ← pyIndex values i
  let d ← pyIndex ds i
  return ⟨key, value, fl (1 - d)⟩

/-- names.py:120-130 `mapping` -/
def mapping (keys values : List (List Char)) : Py (List Match) := do
  let m ← keys.mapM (bestMatch values)
  return sortBy (fun m => -m.score) m

/-- names.py:74-106 `jaro` -/
def jaro (s1 s2 : List Char) : Py ℚ := do
  let ls1 := s1.length
  let ls2 := s2.length
  let length := max ls1 ls2
  let (m, p) ← jaroScan (padStars s1 length) (padStars s2 length) length (List.range length) 0 []
  if m = 0 then return 0
  else
    let t := jaroTranspositions p
    let q1 ← div m ls1
    let q2 ← div m ls2
    let q3 ← div ((m : ℚ) - t) m
    return fl (fl (fl (q1 + q2) + q3) / 3)

/-- names.py:109-118 `jaro_winkler` -/
def jaroWinkler (s1 s2 : List Char) : Py ℚ := do
  let L := commonPrefix s1 s2
  let j ← jaro s1 s2
  return fl (j + fl (fl ((L : ℚ) * fl (1 / 10)) * fl (1 - j)))

end Flt
end Coral
