import Verif.Props.AALine
import Verif.Props.Abbrev
import Verif.Props.Aliasing
import Verif.Props.BBox
import Verif.Props.BufferStr
import Verif.Props.Centroid
import Verif.Props.CentroidLoop
import Verif.Props.Columns
import Verif.Props.Convert
import Verif.Props.ConvertFiles
import Verif.Props.Convex
import Verif.Props.Coord
import Verif.Props.Corners
import Verif.Props.Dbf
import Verif.Props.DbfEncoded
import Verif.Props.DbfForeign
import Verif.Props.Describe
import Verif.Props.Directories
import Verif.Props.Drawing
import Verif.Props.EditDbf
import Verif.Props.Editing
import Verif.Props.EditorOpen
import Verif.Props.EditorOps
import Verif.Props.Export
import Verif.Props.Floats
import Verif.Props.FloatsB
import Verif.Props.FloatsC
import Verif.Props.FloatsD
import Verif.Props.FloatsE
import Verif.Props.FloatsF
import Verif.Props.FloatsG
import Verif.Props.FloatsH
import Verif.Props.FloatsHypot
import Verif.Props.FloatsI
import Verif.Props.FloatsJ
import Verif.Props.FloatsK
import Verif.Props.FloatsM
import Verif.Props.FloatsN
import Verif.Props.FloatsO
import Verif.Props.FloatsP
import Verif.Props.FloatsPage
import Verif.Props.FloatsQ
import Verif.Props.FloatsR
import Verif.Props.FloatsS
import Verif.Props.FloatsT
import Verif.Props.FloatsU
import Verif.Props.FloatsV
import Verif.Props.FloatsW
import Verif.Props.FloatsX
import Verif.Props.FloatsY
import Verif.Props.FloatsZ
import Verif.Props.Frame
import Verif.Props.Geo
import Verif.Props.Gradient
import Verif.Props.GradientOut
import Verif.Props.Grid
import Verif.Props.Iter
import Verif.Props.Names
import Verif.Props.PF
import Verif.Props.PartTypes
import Verif.Props.Pprint
import Verif.Props.Proj
import Verif.Props.ProjLocal
import Verif.Props.ProjLoop
import Verif.Props.Raster
import Verif.Props.Record
import Verif.Props.Repr
import Verif.Props.Rg
import Verif.Props.SaveTo
import Verif.Props.ShapeZ
import Verif.Props.Shapefile
import Verif.Props.Sphere
import Verif.Props.Stats
import Verif.Props.Streams
import Verif.Props.Table
import Verif.Props.Throttle
import Verif.Props.Tqdm
import Verif.Props.Transpositions
import Verif.Props.Vector
import Verif.Props.Vlv
import Verif.Axioms
