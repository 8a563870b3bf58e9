import Verif.Model.ConvertFiles
import Verif.Spec.Convert
import Verif.Spec.Dbf
import Verif.Spec.PF
import Verif.Spec.Shapefile

/-!
# What a shapefile that is written and converted has to hold
-/
namespace Coral
open Shapefile

/-- One polygon with its attributes: the rings and values as given to the writer, the values as a reader should give them, and the name that
should be in the P file. -/
structure Item (D F : Type) where
  parts : List (List (List D))
  attrs : List Dbf.Attr
  values : List (Dbf.Value F)
  name : List Nat

/-- Longitude and latitude of a point. -/
def coords {D K : Type} [Zero D] (val : D → K) (p : List D) : K × K := (val (p[0]?.getD 0), val (p[1]?.getD 0))

/-- A ring without its closing point. -/
def opened {α : Type} [DecidableEq α] (part : List α) : List α := if part.head? = part.getLast? then part.dropLast else part

/-- What the P file should hold for a ring: the closed ring, wrapped, without the closing point. -/
def StoredPart {D K : Type} [Zero D] [Field K] [LinearOrder K] (val : D → K) (part : List (List D)) (ring : List (K × K)) : Prop :=
  ∃ c, Closes part c ∧ StoredRing (c.map (coords val)) ring

/-- The point is a longitude and a latitude in degrees. -/
def InRange {K : Type} [Field K] [LinearOrder K] (p : K × K) : Prop := -180 ≤ p.1 ∧ p.1 ≤ 180 ∧ -90 ≤ p.2 ∧ p.2 ≤ 90

/-- The polygons and their attributes are in the two files: `w` got the polygons by `poly` and was saved in `shp`, `wd` has the fields and records
and was saved in `dbf`; all values fit their fields. -/
structure SavedAs {D F : Type} [Double D] (es : List (Item D F)) (fields : List Dbf.Field) (shp dbf : List Byte) : Prop where
  shapes : ∃ st w w', (st = none ∨ st = some 5) ∧ Writer.polys ({ shapeType := st } : Writer D) (es.map Item.parts) = .ok w ∧ w.saveShp = .ok (w', shp)
  records : ∃ y m d wd, Dbf.Writer.saveDbf { fields := fields, records := es.map Item.attrs } y m d = .ok (wd, dbf)
  fieldNames : ∀ f ∈ fields, Dbf.Ascii f.name ∧ f.deletes = false
  rows : ∀ e ∈ es, Dbf.Row fields e.attrs e.values
  some : es ≠ []
  parts : ∀ e ∈ es, e.parts ≠ []
  points : ∀ e ∈ es, ∀ part ∈ e.parts, ∀ p ∈ part, 2 ≤ p.length

end Coral
