import Verif.Model.Floats
import Verif.Py

/-!
# The page of a saved drawing on floats

As in `Model/Floats.lean`, every operation on floats is rounded (`fl`), without overflow. `str.format` writes the shortest digits that read back
as the same float, so the numbers in the file are these floats. The interpreter is taken to calculate with them exactly; real ones round too, most
of them to single precision. Only the three lines that place the drawing are modelled here; the whole file, over exact numbers, is in
`Model/Vector.lean`.
-/
namespace Coral
namespace Flt

/-- The numbers of the three lines with `translate`, `scale` and `translate`. -/
structure Page where
  half : ℚ
  scl : ℚ
  cx : ℚ
  cy : ℚ

/-- vector.py:295-303: the lines that `Canvas.save` writes if a size is given; bbox.py `width`, `height` and `center` on floats. -/
def page (bb : BBox ℚ) (size margin : ℚ) : Py Page :=
  let half := fl (size / 2)
  let d := max (fl (bb.x1 - bb.x0)) (fl (bb.y1 - bb.y0))
  if d = 0 then .error .zeroDivisionError
  else
    let scl := fl (fl (size - margin) / d)
    let c := center bb
    .ok { half := half, scl := scl, cx := c.1, cy := c.2 }

/-- Where the interpreter puts a point of the drawing. -/
def Page.put (p : Page) (x y : ℚ) : ℚ × ℚ := (p.half + p.scl * (x - p.cx), p.half + p.scl * (y - p.cy))

end Flt
end Coral
