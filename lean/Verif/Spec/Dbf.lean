import Verif.Model.Dbf

/-!
# What the attribute file has to hold
-/
namespace Coral
namespace Dbf

/-- Only ASCII characters. -/
def Ascii (s : Str) : Prop := ∀ c ∈ s, c.toNat < 128

/-- A field for text: neither a number nor a logical field. -/
def Textual (f : Field) : Prop := ∃ c, f.type = [c] ∧ c ≠ 'N' ∧ c ≠ 'n' ∧ c ≠ 'L' ∧ c ≠ 'l'

/-- A field for integers. -/
def Integral (f : Field) : Prop := f.type = ['N'] ∧ f.deci = 0

/-- `v` fits the field and should come back as `out`: text that is not blank, has no blanks around it and is ASCII, or an integer. -/
inductive Fits {F : Type} (f : Field) : Attr → Value F → Prop
  | text {s} : Textual f → s ≠ [] → Ascii s → NoOuterSpace s → (s.length : Int) ≤ f.size → Fits f (.text s) (.text s)
  | int {n} : Integral f → ((decInt n).length : Int) ≤ f.size → Fits f (.int n) (.int n)

/-- The same for all values of a record. -/
inductive Row {F : Type} : List Field → List Attr → List (Value F) → Prop
  | nil : Row [] [] []
  | cons {f fs v vs out outs} : Fits f v out → Row fs vs outs → Row (f :: fs) (v :: vs) (out :: outs)

/-- Fields that can be written: names are ASCII and do not start with "Deletion", types are one ASCII character, sizes and decimals are bytes. -/
structure FieldOk (f : Field) : Prop where
  name : Ascii f.name
  kept : f.deletes = false
  type : Ascii f.type ∧ f.type.length = 1
  size : 0 ≤ f.size ∧ f.size ≤ 255
  deci : 0 ≤ f.deci ∧ f.deci ≤ 255

end Dbf
end Coral
