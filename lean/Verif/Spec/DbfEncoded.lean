import Verif.Model.DbfEncoded
import Verif.Spec.Dbf

/-! # What the attribute file has to hold in other encodings -/
namespace Coral
namespace Dbf

/-- The encoding has all characters of a text. -/
def Codec.Has (K : Codec) (s : Str) : Prop := ∀ c ∈ s, (K.enc1 c).isSome

/-- `v` fits the field and should come back as `out`: text that is not blank, has no blanks around it and is in the encoding, or an integer. -/
inductive FitsIn {F : Type} (K : Codec) (f : Field) : Attr → Value F → Prop
  | text {s} : Textual f → s ≠ [] → K.Has s → NoOuterSpace s → (s.length : Int) ≤ f.size → FitsIn K f (.text s) (.text s)
  | int {n} : Integral f → ((decInt n).length : Int) ≤ f.size → FitsIn K f (.int n) (.int n)

/-- The same for all values of a record. -/
inductive RowIn {F : Type} (K : Codec) : List Field → List Attr → List (Value F) → Prop
  | nil : RowIn K [] [] []
  | cons {f fs v vs out outs} : FitsIn K f v out → RowIn K fs vs outs → RowIn K (f :: fs) (v :: vs) (out :: outs)

/-- A field as the reader finds it in the header: type and sizes are the same, the name (at most ten bytes) is not `DeletionFlag`. -/
structure Found (f g : Field) : Prop where
  type : g.type = f.type
  size : g.size = f.size
  deci : g.deci = f.deci
  name : g.name ≠ deletionField.name

end Dbf
end Coral
