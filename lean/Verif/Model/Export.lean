import Verif.Model.Vector
import Verif.PyDec

/-!
# Model of `Canvas.export`, `export` and `animation` (`coral/vector.py`)

What these functions do to files and which commands they hand to the shell, in order. What a command does is not their business: see
`Spec/Shell.lean`. Return values (exit codes) are not modelled.
-/
namespace Coral
namespace Vector
open PS

variable {K : Type} [Field K] [LinearOrder K]

/-- What a program does to the world outside. -/
inductive Act (K : Type) where
  /-- `open(path, "w")` and writing lines -/
  | write (path : Str) (content : List (Line K))
  /-- `subprocess.call(cmd, shell=True)` -/
  | call (cmd : Str)
  /-- `os.remove(path)` -/
  | remove (path : Str)

/-- vector.py:311 -/
def tempPs : Str := "/tmp/tempeps.ps".toList

/-- vector.py:313-314, 321-322: the same in both -/
def gsHead (device : Str) : Str := "gs -q -dNOPAUSE -dBATCH -dEPSCrop -sDEVICE=".toList ++ device ++ " -sOutputFile=".toList

/-- vector.py:313-314 -/
def canvasCmd (device path : Str) : Str := gsHead device ++ '\'' :: (path ++ '\'' :: ' ' :: tempPs)

/-- vector.py:309-317. Nothing is done when `save` raises. -/
def Canvas.export (c : Canvas K) (path device : Str) (size : Option K) (margin : K) : Py (List (Act K)) := do
  let file ← c.save size margin
  return [.write tempPs file, .call (canvasCmd device path), .remove tempPs]

/-- vector.py:319-324 -/
def exportCmd (pspath output device : Str) : Str := gsHead device ++ output ++ ' ' :: pspath

/-- vector.py:329, 331, 337: `"{:0L}.png".format(i)` in the folder, where `L` is the number of digits of `n`. The name of a temporary
folder holds no braces. -/
def frameName (folder : Str) (n i : Nat) : Str :=
  folder ++ '/' :: (List.replicate ((decNat n).length - (decNat i).length) '0' ++ decNat i ++ ".png".toList)

/-- vector.py:332-333 -/
def animationBox (frames : List (Canvas K)) : BBox K := (frames.foldl (fun a c => a.union c.bbox) BBox.empty).scale (105 / 100)

/-- vector.py:335-339: the canvases afterwards, what is done, and the paths. The progress bar is left out. -/
def animationLoop (bb : BBox K) (folder device : Str) (n : Nat) (size : Option K) (margin : K) :
    Nat → List (Canvas K) → Py (List (Canvas K) × List (Act K) × List Str)
  | _, [] => .ok ([], [], [])
  | i, c :: cs => do
    let c := { c with bbox := bb }
    let acts ← c.export (frameName folder n i) device size margin
    let r ← animationLoop bb folder device n size margin (i + 1) cs
    return (c :: r.1, acts ++ r.2.1, frameName folder n i :: r.2.2)

/-- vector.py:341 -/
def convertCmd (delay : Str) (paths : List Str) (gifpath : Str) : Str :=
  "convert -delay ".toList ++ delay ++ " -loop 0 ".toList ++ pyJoin ' ' paths ++ ' ' :: gifpath

/-- vector.py:326-343: the canvases afterwards and what is done, up to the removal of the temporary folder, whose name is given. `delay` is
the text of the number. -/
def animation (gifpath folder : Str) (frames : List (Canvas K)) (delay device : Str) (size : Option K) (margin : K) :
    Py (List (Canvas K) × List (Act K)) := do
  let r ← animationLoop (animationBox frames) folder device frames.length size margin 0 frames
  return (r.1, r.2.1 ++ [.call (convertCmd delay r.2.2 gifpath)])

end Vector
end Coral
