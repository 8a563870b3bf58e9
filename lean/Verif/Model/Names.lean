import Verif.Py
import Verif.PySort
import Mathlib.Algebra.Order.Ring.Rat

/-!
# Model of `coral/names.py`

Strings are lists of characters. Numbers are exact rationals.
-/
namespace Coral

/-! ### `ascii` (names.py:23-28) -/

/-- names.py:24-25 -/
def accented : List Char :=
  "áàãâäéèẽêëíìĩîïóòõôöúùũûüçÁÀÃÂÄÉÈẼÊËÍÌĨÎÏÓÒÕÔÖÚÙŨÛÜÇ".toList

/-- names.py:26-27 -/
def unaccented : List Char :=
  "aaaaaeeeeeiiiiiooooouuuuucAAAAAEEEEEIIIIIOOOOOUUUUUC".toList

/-- One character through the table of `str.maketrans(src, dst)`. -/
def translateChar (c : Char) : Char :=
  match (accented.zip unaccented).lookup c with
  | some d => d
  | none => c

/-- names.py:23-28 -/
def asciiStr (s : List Char) : List Char := s.map translateChar

/-! ### `damlev` (names.py:43-66) -/

section
variable {α : Type} [DecidableEq α]

/-- The dictionary `d`. -/
abbrev DistTable := Int × Int → Option Nat

/-- `d[k]` -/
def DistTable.get (d : DistTable) (k : Int × Int) : Py Nat :=
  match d k with
  | some v => .ok v
  | none => .error .keyError

/-- `d[k] = v` -/
def DistTable.put (d : DistTable) (k : Int × Int) (v : Nat) : DistTable := fun k' => if k' = k then some v else d k'

/-- `range(-1, n+1)` -/
def rangeM1 (n : Nat) : List Int := (List.range (n + 2)).map (fun (i : Nat) => (i : Int) - 1)

/-- names.py:44-50 -/
def damlevInit (n1 n2 : Nat) : DistTable :=
  let d := (rangeM1 n1).foldl (fun d i => DistTable.put d (i, -1) (i + 1).toNat) (fun _ => none : DistTable)
  (rangeM1 n2).foldl (fun d j => DistTable.put d (-1, j) (j + 1).toNat) d

/-- names.py:54-64: the body of the inner loop. -/
def damlevCell (s1 s2 : List α) (i j : Nat) (d : DistTable) : Py DistTable := do
  let a ← pyIndex s1 i
  let b ← pyIndex s2 j
  let cost := if a = b then 0 else 1
  let del ← d.get ((i : Int) - 1, (j : Int))
  let ins ← d.get ((i : Int), (j : Int) - 1)
  let sub ← d.get ((i : Int) - 1, (j : Int) - 1)
  let d := DistTable.put d (i, j) (min (min (del + 1) (ins + 1)) (sub + cost))
  if i ≠ 0 ∧ j ≠ 0 then
    let b' ← pyIndex s2 ((j : Int) - 1)
    if a = b' then
      let a' ← pyIndex s1 ((i : Int) - 1)
      if a' = b then
        let cur ← d.get (i, j)
        let tr ← d.get ((i : Int) - 2, (j : Int) - 2)
        return d.put (i, j) (min cur (tr + cost))
      else return d
    else return d
  else return d

/-- names.py:43-66 -/
def damlev (s1 s2 : List α) : Py Nat := do
  let d ← (List.range s1.length).foldlM
    (fun d i => (List.range s2.length).foldlM (fun d j => damlevCell s1 s2 i j d) d) (damlevInit s1.length s2.length)
  d.get ((s1.length : Int) - 1, (s2.length : Int) - 1)

/-- names.py:68-71 -/
def strerr (s1 s2 : List α) : Py ℚ := do
  let length := s1.length + s2.length
  let distance ← damlev s1 s2
  if length = 0 then .error .zeroDivisionError
  else return ((distance : ℚ) * 2 / (length : ℚ))

end

/-! ### `jaro` and `jaro_winkler` (names.py:74-118) -/

/-- names.py:78, 81: padding with stars. -/
def padStars (s : List Char) (n : Nat) : List Char := s ++ List.replicate (n - s.length) '*'

/-- `s.find(c, i0, i1)` for one character and bounds from 0 to `len(s)`; -1 if it is not there. -/
def pyFind (s : List Char) (c : Char) (i0 i1 : Int) : Int :=
  match ((List.range s.length).filter (fun (k : Nat) => decide (i0 ≤ k ∧ (k : Int) < i1 ∧ s[k]? = some c))).head? with
  | some k => k
  | none => -1

/-- names.py:88-96: the number of matches `m` and the list `p`, for the positions given. -/
def jaroScan (s1 s2 : List Char) (length : Nat) : List Nat → Nat → List Int → Py (Nat × List Int)
  | [], m, p => .ok (m, p)
  | i :: is, m, p => do
    let w : Int := (length : Int) / 2 - 1
    let a ← pyIndex s1 i
    let b ← pyIndex s2 i
    if a = b then jaroScan s1 s2 length is (m + 1) p
    else
      let f := pyFind s2 a (max 0 (i - w)) (min length (i + w + 1))
      if f ≥ 0 then jaroScan s1 s2 length is (m + 1) (p ++ [f]) else jaroScan s1 s2 length is m p

/-- names.py:99-105 -/
def jaroTranspositions (p : List Int) : Nat :=
  (p.foldl (fun (s : Nat × Int) f => if f < s.2 then (s.1 + 1, s.2) else (s.1, f)) (0, 0)).1

/-- `a / b` on numbers, with `ZeroDivisionError`. -/
def pyDiv (a b : ℚ) : Py ℚ := if b = 0 then .error .zeroDivisionError else .ok (a / b)

/-- names.py:74-106 -/
def jaro (s1 s2 : List Char) : Py ℚ := do
  let ls1 := s1.length
  let ls2 := s2.length
  let length := max ls1 ls2
  let (m, p) ← jaroScan (padStars s1 length) (padStars s2 length) length (List.range length) 0 []
  if m = 0 then return 0
  else
    let t := jaroTranspositions p
    let q1 ← pyDiv m ls1
    let q2 ← pyDiv m ls2
    let q3 ← pyDiv ((m : ℚ) - t) m
    return (q1 + q2 + q3) / 3

/-- names.py:110-116: the length of the common prefix, at most four. -/
def commonPrefix (s1 s2 : List Char) : Nat :=
  let prelen := min (min s1.length s2.length) 4
  (((s1.take prelen).zip (s2.take prelen)).takeWhile (fun p => decide (p.1 = p.2))).length

/-- names.py:109-118 -/
def jaroWinkler (s1 s2 : List Char) : Py ℚ := do
  let L := commonPrefix s1 s2
  let j ← jaro s1 s2
  return j + (L : ℚ) * (1 / 10) * (1 - j)

/-! ### `mapping` (names.py:120-130) -/

/-- names.py:121 -/
structure Match where
  key : List Char
  value : List Char
  score : ℚ
  deriving DecidableEq

/-- The rest of `min(range(n), key=ds.__getitem__)`: `best` is the least so far, at index `bi`; `i` is the next index. -/
def argminLoop (best : ℚ) (bi i : Nat) : List ℚ → Nat
  | [] => bi
  | x :: xs => if x < best then argminLoop x i (i + 1) xs else argminLoop best bi (i + 1) xs

/-- `min(range(len(ds)), key=ds.__getitem__)` -/
def argmin : List ℚ → Py Nat
  | [] => .error .valueError
  | x :: xs => .ok (argminLoop x 0 1 xs)

/-- names.py:124-128 -/
def bestMatch (values : List (List Char)) (key : List Char) : Py Match := do
  let ds ← values.mapM (fun v => strerr key v)
  let i ← argmin ds
  let value ← pyIndex values i
  let d ← pyIndex ds i
  return ⟨key, value, 1 - d⟩

/-- names.py:120-130 -/
def mapping (keys values : List (List Char)) : Py (List Match) := do
  let m ← keys.mapM (bestMatch values)
  return sortBy (fun m => -m.score) m

/-! ### `abbreviations` (names.py:132-169) -/

/-- The scan of `str.replace`; the number is how many characters still belong to the last match. -/
def replaceGo (old new : List Char) : Nat → List Char → List Char
  | _, [] => []
  | k + 1, _ :: cs => replaceGo old new k cs
  | 0, c :: cs => if old.isPrefixOf (c :: cs) then new ++ replaceGo old new (old.length - 1) cs else c :: replaceGo old new 0 cs

/-- `s.replace(old, new)` for a non-empty `old`. -/
def pyReplace (old new s : List Char) : List Char := replaceGo old new 0 s

/-- `itertools.combinations(l, k)` -/
def combinations {α : Type} : Nat → List α → List (List α)
  | 0, _ => [[]]
  | _ + 1, [] => []
  | k + 1, a :: l => (combinations k l).map (a :: ·) ++ combinations (k + 1) l

/-- names.py:143-145 -/
def dropExtras (extras : List (List Char)) (name : List Char) : List Char :=
  extras.foldl (fun t extra => pyReplace (' ' :: extra ++ [' ']) [' '] t) name

/-- names.py:137-139: `hist`, the number of names with the letter; `hist[c]` raises for a letter of none. -/
def hist (inames : List (List Char)) (c : Char) : Py Nat :=
  let n := inames.countP (fun name => decide (c ∈ name))
  if n = 0 then .error .keyError else .ok n

/-- names.py:149-150 -/
def initis (tname : List Char) : List Nat := 0 :: (tname.zipIdx.filter (fun p => p.1 == ' ')).map (fun p => p.2 + 1)

/-- names.py:155-158: one round moves the initial at `p.1` to place `p.2`. -/
def moveInitial (tname : List Char) (ics : List (Nat × Char)) (p : Nat × Nat) : Py (List (Nat × Char)) := do
  let c ← pyIndex tname p.1
  if (p.1, c) ∈ ics then
    let rest := ics.erase (p.1, c)
    return rest.take p.2 ++ (p.1, c) :: rest.drop p.2
  else .error .valueError

/-- names.py:160-161 -/
def spell (comb : List (Nat × Char)) : List Char := (sortBy (fun ic => ic.1) comb).map (fun ic => ic.2)

/-- names.py:153: the sort computes all keys first. -/
def sortRare (inames : List (List Char)) (ics : List (Nat × Char)) : Py (List (Nat × Char)) := do
  let keys ← ics.mapM (fun ic => hist inames ic.2)
  return (sortBy (fun p : Nat × (Nat × Char) => p.1) (keys.zip ics)).map (fun p => p.2)

/-- names.py:146-165: the abbreviation of one name, where `taken` is `abbset`. The combinations are lazy in Python. -/
def abbreviate (inames : List (List Char)) (length : Nat) (taken : List (List Char)) (tname : List Char) : Py (List Char) :=
  if tname.length ≤ length then .ok tname
  else do
    let ics := (tname.zipIdx.map (fun p => (p.2, p.1))).filter (fun ic => ic.2 != ' ')
    let ics ← sortRare inames ics
    let ics ← (initis tname).zipIdx.foldlM (moveInitial tname) ics
    match ((combinations length ics).map spell).find? (fun abb => decide (abb ∉ taken)) with
    | some abb => .ok abb
    | none => .error .exception

/-- names.py:140-167: the loop. `abbdict` is the list of abbreviations so far; `abbset` has the same members. -/
def abbreviateAll (extras : Option (List (List Char))) (inames : List (List Char)) (length : Nat) : List (List Char) → List (List Char) → Py (List (List Char))
  | abbs, [] => .ok abbs
  | abbs, name :: rest =>
    match extras with
    | none => .error .nameError
    | some es => do
      let abb ← abbreviate inames length abbs (dropExtras es name)
      abbreviateAll extras inames length (abbs ++ [abb]) rest

/-- names.py:132-168. The name `extras` (144) is defined nowhere in the module: the code is the case `extras = none`. The other cases are what the
function would do if the module had such a list. `upper` stands for `str.upper`, `length` is not negative. The sort of line 135 is by the length of
pairs, hence no sort. The result is the list of pairs the dictionary is built from. -/
def abbreviations (extras : Option (List (List Char))) (upper : List Char → List Char) (names : List (List Char)) (length : Nat) :
    Py (List (List Char × List Char)) := do
  let inames := names.map (fun name => asciiStr (upper name))
  let abbs ← abbreviateAll extras inames length [] inames
  return names.zip abbs

end Coral
