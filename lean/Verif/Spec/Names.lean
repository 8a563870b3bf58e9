import Mathlib.Data.Rat.Defs
import Mathlib.Algebra.Order.Ring.Rat

/-!
# What the properties of `names` say

Nothing here refers to the model.
-/
namespace Coral

section
variable {α : Type}

/-- `s` can be turned into `t` by `n` edits of separate places: insert, delete or replace a letter, or exchange two
adjacent ones. Letters not edited are the same on both sides. -/
inductive Edits : List α → List α → Nat → Prop
  | nil : Edits [] [] 0
  | keep {a s t n} : Edits s t n → Edits (a :: s) (a :: t) n
  | replace {a b s t n} : Edits s t n → Edits (a :: s) (b :: t) (n + 1)
  | delete {a s t n} : Edits s t n → Edits (a :: s) t (n + 1)
  | insert {b s t n} : Edits s t n → Edits s (b :: t) (n + 1)
  | exchange {a b s t n} : Edits s t n → Edits (a :: b :: s) (b :: a :: t) (n + 1)

/-- One edit somewhere. -/
inductive OneEdit : List α → List α → Prop
  | replace {a b s} : OneEdit (a :: s) (b :: s)
  | delete {a s} : OneEdit (a :: s) s
  | insert {b s} : OneEdit s (b :: s)
  | exchange {a b s} : OneEdit (a :: b :: s) (b :: a :: s)
  | later {a s t} : OneEdit s t → OneEdit (a :: s) (a :: t)

/-- Edits one after the other, which may edit a place more than once. -/
inductive Chain : List α → List α → Nat → Prop
  | nil {s} : Chain s s 0
  | cons {s t u n} : OneEdit s t → Chain t u n → Chain s u (n + 1)

/-- The least number of edits. -/
def LeastEdits (s t : List α) (n : Nat) : Prop := Edits s t n ∧ ∀ m, Edits s t m → n ≤ m
end

/-- The relative error of two strings: the least number of edits by the mean length. -/
def StrErr (s t : List Char) (e : ℚ) : Prop := ∃ n, LeastEdits s t n ∧ e = (n : ℚ) * 2 / ((s.length : ℚ) + (t.length : ℚ))

/-- `v` is the first of the values with the least error. -/
def FirstBest (values : List (List Char)) (key v : List Char) : Prop :=
  ∃ (i : Nat) (e : ℚ), values[i]? = some v ∧ StrErr key v e ∧
    (∀ j < i, ∀ w, values[j]? = some w → ∀ d, StrErr key w d → e < d) ∧
    ∀ w ∈ values, ∀ d, StrErr key w d → e ≤ d

/-- The letters with accents, by the letter without. -/
def accentGroups : List (Char × List Char) :=
  [('a', ['á', 'à', 'ã', 'â', 'ä']), ('e', ['é', 'è', 'ẽ', 'ê', 'ë']), ('i', ['í', 'ì', 'ĩ', 'î', 'ï']),
   ('o', ['ó', 'ò', 'õ', 'ô', 'ö']), ('u', ['ú', 'ù', 'ũ', 'û', 'ü']), ('c', ['ç']),
   ('A', ['Á', 'À', 'Ã', 'Â', 'Ä']), ('E', ['É', 'È', 'Ẽ', 'Ê', 'Ë']), ('I', ['Í', 'Ì', 'Ĩ', 'Î', 'Ï']),
   ('O', ['Ó', 'Ò', 'Õ', 'Ô', 'Ö']), ('U', ['Ú', 'Ù', 'Ũ', 'Û', 'Ü']), ('C', ['Ç'])]

/-- A letter with an accent. -/
def IsAccented (c : Char) : Prop := ∃ g ∈ accentGroups, c ∈ g.2

instance (c : Char) : Decidable (IsAccented c) := inferInstanceAs (Decidable (∃ g ∈ accentGroups, c ∈ g.2))

/-- Words are separated by single spaces, with none in front or behind. -/
def Spaced (t : List Char) : Prop :=
  (∀ c, t[0]? = some c → c ≠ ' ') ∧ ∀ i, t[i]? = some ' ' → ∃ c, t[i + 1]? = some c ∧ c ≠ ' '

/-- The first letters of the words; the flag says whether a word may begin here. -/
def wordInitials : Bool → List Char → List Char
  | _, [] => []
  | b, c :: cs => if b then c :: wordInitials (c == ' ') cs else wordInitials (c == ' ') cs

end Coral
