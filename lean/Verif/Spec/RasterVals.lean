import Verif.Model.Raster
import Verif.Spec.Raster

/-!
# What a write to a gray or colour pixel should do

Only the types of assigned values are the model's.
-/
namespace Coral

/-- The data has the right size and is made of bytes. -/
structure BW.WF (c : BW) : Prop where
  len : c.data.length = bytesPerRow c.width * c.height
  byte : ∀ b ∈ c.data, b < 256

/-- The data has the right size and is made of bytes. -/
structure Gray.WF (c : Gray) : Prop where
  len : c.data.length = c.width * c.height
  byte : ∀ b ∈ c.data, b < 256

/-- The data has the right size and is made of bytes. -/
structure Colour.WF (c : Colour) : Prop where
  len : c.data.length = 3 * (c.width * c.height)
  byte : ∀ b ∈ c.data, b < 256

section
variable {K : Type} [Field K] [LinearOrder K] [FloorRing K]

/-- A write that a gray pixel accepts: a byte, or a value from 0 to 255 with an alpha from 0 to 1. -/
def GrayVal.Valid : GrayVal K → Prop
  | .v n => 0 ≤ n ∧ n ≤ 255
  | .va fg a => 0 ≤ fg ∧ fg ≤ 255 ∧ 0 ≤ a ∧ a ≤ 1

/-- What is left of a gray pixel after a write. -/
def GrayVal.over (bg : Nat) : GrayVal K → Nat
  | .v n => n.toNat
  | .va fg a => (Mix (bg : K) fg a).toNat

/-- A write that a colour pixel accepts: three bytes, or three values from 0 to 255 with an alpha from 0 to 1. -/
def ColourVal.Valid : ColourVal K → Prop
  | .plain c => c.length = 3 ∧ ∀ v ∈ c, 0 ≤ v ∧ v ≤ 255
  | .rgba r g b a => (0 ≤ r ∧ r ≤ 255) ∧ (0 ≤ g ∧ g ≤ 255) ∧ (0 ≤ b ∧ b ≤ 255) ∧ 0 ≤ a ∧ a ≤ 1

/-- What is left of a colour pixel after a write. -/
def ColourVal.over (bg : Nat × Nat × Nat) : ColourVal K → Nat × Nat × Nat
  | .plain c => ((c.getD 0 0).toNat, (c.getD 1 0).toNat, (c.getD 2 0).toNat)
  | .rgba r g b a => ((Mix (bg.1 : K) r a).toNat, (Mix (bg.2.1 : K) g a).toNat, (Mix (bg.2.2 : K) b a).toNat)

end
end Coral
