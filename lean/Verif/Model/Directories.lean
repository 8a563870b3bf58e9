import Verif.PyStr

/-!
# The directories of saved files

`Writer.__getFileObj` (shapefile.py:606-616) with the tree of directories it works on. A disk gives what is found at each place. A place is the list of
names on the way to it, from the root of the tree or from the working directory (which are kept apart). Simplifications: the names `.` and `..`, links,
permissions and full disks are not modelled.
-/
namespace Coral
namespace Dirs

/-- What is found at a place. -/
inductive Node where
  | dir | file (bytes : List Nat)
  deriving DecidableEq, Repr

/-- A place: whether it is counted from the root, and the names on the way. -/
abbrev Place := Bool × List Str

/-- A disk. -/
abbrev Disk := Place → Option Node

/-- What `makedirs` and `open` raise, and the exception of shapefile.py:609. -/
inductive Err where
  | fileExists | notFound | notADirectory | isADirectory | shapefileException
  deriving DecidableEq, Repr

/-- The names in a path: empty ones do not count. -/
def names (p : Str) : List Str := (pySplit '/' p).filter (· ≠ [])

/-- The place a path leads to. -/
def place (p : Str) : Place := (p.head? == some '/', names p)

/-- Python's `posixpath.split`, used in shapefile.py:613: at the last slash; slashes at the end of the head go away unless there is nothing else. -/
def split (p : Str) : Str × Str :=
  let tail := (p.reverse.takeWhile (· ≠ '/')).reverse
  let head := (p.reverse.dropWhile (· ≠ '/')).reverse
  (if head.all (· = '/') then head else (head.reverse.dropWhile (· = '/')).reverse, tail)

/-- `os.path.exists`, used in shapefile.py:614. -/
def Disk.has (d : Disk) (p : Str) : Bool := (d (place p)).isSome

/-- A disk with something put at a place. -/
def Disk.put (d : Disk) (q : Place) (n : Node) : Disk := fun r => if r = q then some n else d r

/-- `os.mkdir`, which `makedirs` calls. -/
def mkdir (d : Disk) (p : Str) : Option Err × Disk :=
  let q := place p
  if (d q).isSome then (some .fileExists, d)
  else match d (q.1, q.2.dropLast) with
    | none => (some .notFound, d)
    | some (.file _) => (some .notADirectory, d)
    | some .dir => (none, d.put q .dir)

theorem split_fst_length (p : Str) : (split p).1.length + (split p).2.length ≤ p.length := by
  have h : (p.reverse.takeWhile (· ≠ '/')).length + (p.reverse.dropWhile (· ≠ '/')).length = p.length := by
    rw [← List.length_append, List.takeWhile_append_dropWhile, List.length_reverse]
  have h2 := (List.dropWhile_suffix (l := (p.reverse.dropWhile (· ≠ '/'))) (fun x => decide (x = '/'))).length_le
  unfold split
  simp only [List.length_reverse, List.reverse_reverse]
  split
  · simp only [List.length_reverse]; omega
  · simp only [List.length_reverse]; omega

/-- Python's `split` as `makedirs` uses it: once more if the path ends in a slash. -/
def split2 (p : Str) : Str × Str := if (split p).2 = [] then split (split p).1 else split p

theorem split2_length (p : Str) (h : (split2 p).2 ≠ []) : (split2 p).1.length < p.length := by
  have h1 := split_fst_length p
  have h3 := split_fst_length (split p).1
  have h4 : 0 < (split2 p).2.length := List.length_pos_iff.mpr h
  unfold split2 at *
  split at h4
  · rename_i h5; rw [if_pos h5]; omega
  · rename_i h5; rw [if_neg h5]; omega

/-- Python's `os.makedirs`, used in shapefile.py:615: the directories above first; that one of these has come to exist meanwhile is no error. -/
def makedirs (d : Disk) (p : Str) : Option Err × Disk :=
  if h : (split2 p).1 ≠ [] ∧ (split2 p).2 ≠ [] ∧ d.has (split2 p).1 = false then
    match makedirs d (split2 p).1 with
    | (none, d) => mkdir d p
    | (some .fileExists, d) => mkdir d p
    | (some e, d) => (some e, d)
  else mkdir d p
termination_by p.length
decreasing_by exact split2_length p h.2.1

/-- `open(f, "wb")` of shapefile.py:616: the file is empty from then on. -/
def openWb (d : Disk) (p : Str) : Option Err × Disk :=
  let q := place p
  match d q with
  | some .dir => (some .isADirectory, d)
  | some (.file _) => (none, d.put q (.file []))
  | none => match d (q.1, q.2.dropLast) with
    | none => (some .notFound, d)
    | some (.file _) => (some .notADirectory, d)
    | some .dir => (none, d.put q (.file []))

/-- shapefile.py:606-616 `Writer.__getFileObj` for a name. -/
def getFileObj (d : Disk) (f : Str) : Option Err × Disk :=
  if f = [] then (some .shapefileException, d)
  else
    let pth := (split f).1
    if pth ≠ [] ∧ d.has pth = false then
      match makedirs d pth with
      | (none, d) => openWb d f
      | (some e, d) => (some e, d)
    else openWb d f

end Dirs
end Coral
