import Verif.Model.Dbf

/-! # Model of `record()` with keywords (`coral/shapefile.py`) -/
namespace Coral
namespace Dbf

/-- shapefile.py:990-996: the values that are kept; `None` becomes the empty text. -/
def pick (fields : List Field) (values : List (Str × Option Attr)) : List Attr :=
  fields.filterMap (fun f => (values.lookup f.name).map (fun v => v.getD (.text [])))

/-- shapefile.py:976-999 `record(**values)`; no two of the keywords are the same. -/
def Writer.recordWith (w : Writer) (values : List (Str × Option Attr)) : Py Writer :=
  match w.fields with
  | [] => .error .indexError
  | _ :: _ =>
    let record := pick w.fields values
    if record = [] then .ok w else .ok { w with records := w.records ++ [record] }

end Dbf
end Coral
