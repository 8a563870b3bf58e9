import Verif.Model.Shapefile

/-!
# Model of `coral/shapefile.py`: the part types of multipatches

The default of `partTypes` is one list, made when the class is defined; every call of `poly` without part types works on it.
-/
namespace Coral
namespace Shapefile

section
variable {D : Type} [Double D]

/-- A writer whose shapes may refer to the default list (`true`); `dflt` is what that list holds at the moment. -/
structure Patches (D : Type) where
  shapes : List (Shape D × Bool) := []
  dflt : List Int := []

/-- shapefile.py:941-970 `poly(parts, shapeType, partTypes)`, with part types not given (`none`) or given as a list of the caller's. -/
def Patches.poly (p : Patches D) (parts : List (List (List D))) (shapeType : Int) (partTypes : Option (List Int)) : Py (Patches D) := do
  let parts ← if shapeType ∈ ([5, 15, 25, 31] : List Int) then parts.mapM closePart else pure parts
  let (starts, points) := polyLoop [] [] parts
  let shape : Shape D := { shapeType := some shapeType, points := points, parts := some starts }
  if shapeType = 31 then
    match partTypes with
    | none =>
      let dflt := if p.dflt = [] then parts.map (fun _ => shapeType) else p.dflt
      return { shapes := p.shapes ++ [(shape, true)], dflt := dflt }
    | some l =>
      let l := if l = [] then parts.map (fun _ => shapeType) else l
      return { p with shapes := p.shapes ++ [({ shape with partTypes := some l }, false)] }
  else return { p with shapes := p.shapes ++ [(shape, false)] }

/-- shapefile.py:935-939 `line(parts, shapeType)`: with a new list. -/
def Patches.line (p : Patches D) (parts : List (List (List D))) (shapeType : Int) : Py (Patches D) := p.poly parts shapeType (some [])

/-- What the attribute `partTypes` of each shape holds. -/
def Patches.current (p : Patches D) : List (Shape D) := p.shapes.map (fun s => if s.2 then { s.1 with partTypes := some p.dflt } else s.1)

end

end Shapefile
end Coral
