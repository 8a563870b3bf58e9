import Verif.Model.Export

/-!
# What a shell and Ghostscript do with a command

The shell splits a command into words (POSIX Shell Command Language, 2.2 and 2.3). A command that is more than words, because of an operator,
an expansion, a pattern or a comment, has no value here; nor has one with an open quote.
-/
namespace Coral
namespace Shell

inductive Quote where
  | no
  | esc
  | single
  | double
  | doubleEsc
  deriving DecidableEq

def isBlank (c : Char) : Bool := c = ' ' || c = '\t'

/-- Characters that mean something else to a shell wherever they are without quotes. -/
def special : List Char := ['|', '&', ';', '<', '>', '(', ')', '$', '`', '*', '?', '[', '\n']

/-- Characters that mean something else at the beginning of a word. -/
def specialFirst : List Char := ['#', '~']

/-- The words, from inside a word (`some`: what there is of it) or between words. -/
def wordsGo : Quote → Option Str → Str → Option (List Str)
  | .no, none, [] => some []
  | .no, some w, [] => some [w]
  | _, _, [] => none
  | .no, cur, c :: cs =>
    if isBlank c then
      match cur with
      | none => wordsGo .no none cs
      | some w => (wordsGo .no none cs).map (w :: ·)
    else if c = '\'' then wordsGo .single (some (cur.getD [])) cs
    else if c = '"' then wordsGo .double (some (cur.getD [])) cs
    else if c = '\\' then wordsGo .esc cur cs
    else if c ∈ special ∨ (cur = none ∧ c ∈ specialFirst) then none
    else wordsGo .no (some (cur.getD [] ++ [c])) cs
  | .single, cur, c :: cs => if c = '\'' then wordsGo .no cur cs else wordsGo .single (some (cur.getD [] ++ [c])) cs
  | .esc, cur, c :: cs => if c = '\n' then wordsGo .no cur cs else wordsGo .no (some (cur.getD [] ++ [c])) cs
  | .double, cur, c :: cs =>
    if c = '"' then wordsGo .no cur cs
    else if c = '\\' then wordsGo .doubleEsc cur cs
    else if c = '$' ∨ c = '`' then none
    else wordsGo .double (some (cur.getD [] ++ [c])) cs
  | .doubleEsc, cur, c :: cs =>
    if c = '\n' then wordsGo .double cur cs
    else if c ∈ ['$', '`', '"', '\\'] then wordsGo .double (some (cur.getD [] ++ [c])) cs
    else wordsGo .double (some (cur.getD [] ++ ['\\', c])) cs

def words (cmd : Str) : Option (List Str) := wordsGo .no none cmd

/-- A character that stands for itself inside a word. -/
def Plain (c : Char) : Prop := isBlank c = false ∧ c ≠ '\'' ∧ c ≠ '"' ∧ c ≠ '\\' ∧ c ∉ special

/-- A text that is one word as it is. -/
def PlainWord (w : Str) : Prop := w ≠ [] ∧ (∀ c ∈ w, Plain c) ∧ ∀ c, w.head? = some c → c ∉ specialFirst

end Shell

namespace Vector
open Shell

/-- What can be in a file: PostScript, or the image drawn by such a file, or images one after the other. -/
inductive Doc (K : Type) where
  | ps (f : List (Line K))
  | image (f : List (Line K))
  | movie (fs : List (List (Line K)))

/-- The files by name. -/
def Disk (K : Type) := Str → Option (Doc K)

def Disk.set {K : Type} (d : Disk K) (p : Str) (x : Option (Doc K)) : Disk K := fun q => if q = p then x else d q

def Doc.asImage {K : Type} : Doc K → Option (List (Line K))
  | .image f => some f
  | _ => none

/-- `gs ... -sOutputFile=X ... F` draws the file `F` on the image `X`; without such a file nothing is drawn. (That
Ghostscript puts page numbers for `%d` in a name is left out.) -/
def ghostscript {K : Type} (args : List Str) (d : Disk K) : Disk K :=
  match args.getLast? with
  | none => d
  | some inp =>
    match args.find? (fun a => "-sOutputFile=".toList.isPrefixOf a), d inp with
    | some a, some (.ps f) => d.set (a.drop 13) (some (.image f))
    | _, _ => d

/-- The arguments of `convert` that are files: `-delay` and `-loop` have a value. -/
def operands : List Str → List Str
  | [] => []
  | [a] => [a]
  | a :: b :: l => if a = "-delay".toList ∨ a = "-loop".toList then operands l else a :: operands (b :: l)

/-- `convert I J ... X` puts the images one after the other in `X`; nothing is done here unless there are images and all are readable. -/
def convert {K : Type} (args : List Str) (d : Disk K) : Disk K :=
  match (operands args).dropLast, (operands args).getLast? with
  | i :: is, some out =>
    match (i :: is).mapM (fun p => (d p).bind Doc.asImage) with
    | some fs => d.set out (some (.movie fs))
    | none => d
  | _, _ => d

/-- Doing one thing; `none` is an exception. Other commands do nothing here, nor do commands that are not just words. -/
def Disk.act {K : Type} (d : Disk K) : Act K → Option (Disk K)
  | .write p f => some (d.set p (some (.ps f)))
  | .remove p => if (d p).isNone then none else some (d.set p none)
  | .call cmd =>
    match words cmd with
    | some (w :: ws) => some (if w = "gs".toList then ghostscript ws d else if w = "convert".toList then convert ws d else d)
    | _ => some d

def Disk.acts {K : Type} : Disk K → List (Act K) → Option (Disk K)
  | d, [] => some d
  | d, a :: as => (d.act a).bind (fun d => d.acts as)

/-- Two programs running at the same time: what happens, in order. -/
inductive Mixed {α : Type} : List α → List α → List α → Prop where
  | nil : Mixed [] [] []
  | left {a : α} {as bs cs : List α} : Mixed as bs cs → Mixed (a :: as) bs (a :: cs)
  | right {b : α} {as bs cs : List α} : Mixed as bs cs → Mixed as (b :: bs) (b :: cs)

end Vector
end Coral
