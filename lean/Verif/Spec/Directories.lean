import Verif.Model.Directories

/-! # What is said about the directories of saved files -/
namespace Coral
namespace Dirs

/-- Everything on the disk lies in directories. -/
structure Sound (d : Disk) : Prop where
  root : ∀ b, d (b, []) = some .dir
  above : ∀ b q n, d (b, q ++ [n]) ≠ none → d (b, q) = some .dir

/-- One place is above another. -/
def Above (q r : Place) : Prop := q.1 = r.1 ∧ ∃ s ≠ [], r.2 = q.2 ++ s

/-- A file is in the way of a place. -/
def Blocked (d : Disk) (r : Place) : Prop := ∃ q bs, Above q r ∧ d q = some (.file bs)

/-- The name of a file: not empty, no slash at the end. -/
def FileName (f : Str) : Prop := f ≠ [] ∧ f.getLast? ≠ some '/'

/-- `e` is `d` with the directories above `r` and an empty file at `r`. -/
structure Opened (d e : Disk) (r : Place) : Prop where
  file : e r = some (.file [])
  dirs : ∀ q, Above q r → e q = some .dir
  rest : ∀ q, q ≠ r → ¬ Above q r → e q = d q

end Dirs
end Coral
