import Verif.PyDec
import Verif.Model.Grid
import Verif.Model.Vlv

/-!
# Model of `coral/rg.py`

The integer codec (rg.py 89-122) is that of `coral/pf.py`, see `Verif/Model/Vlv.lean`; the columns are those of `coral/grid.py`, see
`Verif/Model/Grid.lean`. Bytes are written in native order by `struct.pack("I", ...)`; little-endian is assumed. The limits of a real column are
Python integers (others raise `TypeError` when the header is written, that is not modelled). Ids are given by their text; the index file is text
without surrogates.
-/
namespace Coral
namespace Rg

/-- The arguments of a column's constructor, apart from the name. -/
inductive Kind
  | ivar (minv maxv : Int) (nullable : Bool)
  | fvar (minv maxv : Int) (size : Nat) (nullable : Bool)
  | svar (size : Nat) (nullable : Bool)
  deriving DecidableEq

/-- A named column. -/
structure Col where
  name : List Nat
  kind : Kind
  deriving DecidableEq

/-- `field.nullable` -/
def Kind.nullable : Kind → Bool
  | .ivar _ _ n => n
  | .fvar _ _ _ n => n
  | .svar _ n => n

section
variable {K : Type} [Field K] [LinearOrder K] [FloorRing K]

/-- The constructors of `coral/grid.py`. -/
def Kind.make : Kind → Py (Column K)
  | .ivar minv maxv nullable => do return .ivar (← IVar.init minv maxv nullable)
  | .fvar minv maxv size nullable => do return .fvar (← FVar.init (minv : K) (maxv : K) size nullable)
  | .svar size nullable => .ok (.svar ⟨size, nullable⟩)

/-! ### The index file -/

/-- rg.py:129-130: one entity. -/
def writeEntry (e : Str × List Nat) : Str := e.1 ++ ' ' :: (decNat e.2.length ++ '\n' :: (pyJoin ' ' (e.2.map decNat) ++ ['\n']))

/-- rg.py:124-130 `_writeindex` -/
def writeIndex (index : List (Str × List Nat)) : Str := decNat index.length ++ '\n' :: (index.map writeEntry).flatten

/-- The line ends of a file read as text. -/
def newlines : Str → Str
  | [] => []
  | '\r' :: '\n' :: s => '\n' :: newlines s
  | '\r' :: s => '\n' :: newlines s
  | c :: s => c :: newlines s

/-- `md.readline()`: the line with its end, and the rest. -/
def readline : Str → Str × Str
  | [] => ([], [])
  | c :: s => if c = '\n' then ([c], s) else (c :: (readline s).1, (readline s).2)

/-- rg.py:137-140: one entity. -/
def readEntry (s : Str) : Py ((Str × List Int) × Str) :=
  match pySplit ' ' (readline s).1 with
  | [eid, ensegs] => do
    let _ ← pyIntOf ensegs
    let elens ← (pySplit ' ' (readline (readline s).2).1).mapM pyIntOf
    return ((eid, elens), (readline (readline s).2).2)
  | _ => .error .valueError

/-- rg.py:136-140: the loop. -/
def readEntries : Nat → Str → Py (List (Str × List Int))
  | 0, _ => .ok []
  | n + 1, s => do
    let (e, s) ← readEntry s
    let es ← readEntries n s
    return e :: es

/-- rg.py:132-141 `_readindex` -/
def readIndex (text : Str) : Py (List (Str × List Int)) := do
  let (line, s) := readline (newlines text)
  let n ← pyIntOf line
  readEntries n.toNat s

/-! ### Writing -/

/-- rg.py:165-178: the description of one column after its name. `IVar` sizes are computed by its constructor. -/
def kindHeader (k : Kind) (size : Nat) : List Byte :=
  let nullable : Byte := if k.nullable then 1 else 0
  match k with
  | .ivar minv maxv _ => [0, nullable] ++ writevlv size ++ writesvlv minv ++ writesvlv maxv
  | .fvar minv maxv _ _ => [1, nullable] ++ writevlv size ++ writesvlv minv ++ writesvlv maxv
  | .svar _ _ => [2, nullable] ++ writevlv size

/-- rg.py:162-178: the description of one column. -/
def colHeader (c : Col) (size : Nat) : Py (List Byte) := do
  let name ← writeascii c.name
  return name ++ kindHeader c.kind size

/-- A `Writer`: the number of columns, the bytes of their descriptions, the columns, the rows written so far and the index. -/
structure Writer (K : Type) where
  ncols : Nat
  descr : List Byte
  cols : List (Column K)
  data : List Byte
  index : List (Str × List Nat)

/-- The columns of `row`, as the user constructs them. -/
def makeCols (row : List Col) : Py (List (Column K)) := row.mapM (fun c => c.kind.make)

/-- rg.py:145-178 `Writer(path, row)`, after making the columns of the row. -/
def Writer.new (row : List Col) : Py (Writer K) := do
  let cols ← makeCols row
  pyAssert (decide (row.length < 256))
  let ds ← (row.zip cols).mapM (fun p => colHeader p.1 p.2.size)
  return { ncols := row.length, descr := ds.flatten, cols := cols, data := [], index := [] }

/-- rg.py:187-190: the rows of a segment; bytes written, and what is raised after that. -/
def encodeRows (cols : List (Column K)) : List (List (GVal K)) → List Byte × Py Unit
  | [] => ([], .ok ())
  | r :: rs =>
    match growEncode cols r with
    | .error e => ([], .error e)
    | .ok d => (d ++ (encodeRows cols rs).1, (encodeRows cols rs).2)

/-- rg.py:185-191: the segments. -/
def encodeSegs (cols : List (Column K)) : List (List (List (GVal K))) → List Byte × Py Unit
  | [] => ([], .ok ())
  | s :: ss =>
    match encodeRows cols s with
    | (d, .error e) => (d, .error e)
    | (d, .ok ()) => (d ++ (encodeSegs cols ss).1, (encodeSegs cols ss).2)

/-- rg.py:180-192 `write`: the `Writer` afterwards, and what is raised. -/
def Writer.write (w : Writer K) (segs : List (List (List (GVal K)))) (id : Option Str) : Writer K × Py Unit :=
  let id := id.getD (decNat w.index.length)
  let res := encodeSegs w.cols segs
  match res.2 with
  | .ok () => ({ w with data := w.data ++ res.1, index := w.index ++ [(id, segs.map List.length)] }, .ok ())
  | .error e => ({ w with data := w.data ++ res.1 }, .error e)

/-- rg.py:194-201 `close`: the data file and the index file. -/
def Writer.close (w : Writer K) : Py (List Byte × Str) := do
  let n ← packU 4 ((w.index.map (fun e => e.2.sum)).sum : Nat)
  return ([82, 71, 1, w.ncols] ++ n.reverse ++ w.descr ++ w.data, writeIndex w.index)

/-! ### Reading -/

/-- `ord(rg.read(1))` -/
def readOrd : List Byte → Py (Byte × List Byte)
  | [] => .error .typeError
  | b :: s => .ok (b, s)

/-- rg.py:229-247: after the name. -/
def readKind (s : List Byte) : Py (Kind × List Byte) := do
  let (tp, s) ← readOrd s
  if tp = 0 then
    let (n, s) ← readOrd s
    let (_, s) ← readvlv s
    let (minv, s) ← readsvlv s
    let (maxv, s) ← readsvlv s
    return (.ivar minv maxv (n ≠ 0), s)
  else if tp = 1 then
    let (n, s) ← readOrd s
    let (size, s) ← readvlv s
    let (minv, s) ← readsvlv s
    let (maxv, s) ← readsvlv s
    return (.fvar minv maxv size (n ≠ 0), s)
  else if tp = 2 then
    let (n, s) ← readOrd s
    let (size, s) ← readvlv s
    return (.svar size (n ≠ 0), s)
  else .error .typeError

/-- rg.py:223-247: one column. Without a zero byte the name is never finished. -/
def readCol (s : List Byte) : Res ((Col × Column K) × List Byte) := do
  let (name, s) ← readascii s
  let (kind, s) ← Res.lift (readKind s)
  let col ← Res.lift (Kind.make kind)
  return (({ name := name, kind := kind }, col), s)

/-- rg.py:222-247: the loop. -/
def readCols : Nat → List Byte → Res (List (Col × Column K) × List Byte)
  | 0, s => .ok ([], s)
  | n + 1, s => do
    let (c, s) ← readCol s
    let (cs, s) ← readCols n s
    return (c :: cs, s)

/-- A `Reader`; `rg` is the whole file. -/
structure Reader (K : Type) where
  rg : List Byte
  pos : Nat
  index : List (Str × List Int)
  cols : List (Column K)
  datapos : Nat
  idx : Nat

/-- rg.py:215-220: the first eight bytes; the number of columns and the rest. -/
def readStart (rg : List Byte) : Py (Nat × List Byte) := do
  pyAssert (decide (rg.take 2 = [82, 71]))
  pyAssert (decide ((rg.drop 2).take 1 = [1]))
  let (ncols, s) ← readOrd (rg.drop 3)
  if s.length < 4 then .error .structError else return (ncols, s.drop 4)

/-- rg.py:205-211, 213-250 `Reader(path)`. The module `collections` is used in line 249 but never imported: `imported` tells if it were. `nt` is
`collections.namedtuple("Row", names)`, which refuses some names. -/
def Reader.new' (imported : Bool) (nt : List (List Nat) → Py Unit) (rg : List Byte) (md : Str) : Res (Reader K) := do
  let index ← Res.lift (readIndex md)
  let (ncols, s) ← Res.lift (readStart rg)
  let (cs, s) ← readCols ncols s
  if imported then
    let _ ← Res.lift (nt (cs.map (fun c => c.1.name)))
    return { rg := rg, pos := rg.length - s.length, index := index, cols := cs.map (fun c => c.2), datapos := rg.length - s.length, idx := 0 }
  else .raise .nameError

/-- rg.py:205-250 as it is: nothing imports `collections`. -/
def Reader.new (nt : List (List Nat) → Py Unit) (rg : List Byte) (md : Str) : Res (Reader K) := Reader.new' false nt rg md

/-- rg.py:255-262: the position in the index and the offset of the first entity with the id. -/
def find (size : Nat) (id : Str) : List (Str × List Int) → Nat → Int → Option (Nat × Int)
  | [], _, _ => none
  | e :: es, idx, offset => if e.1 = id then some (idx, offset) else find size id es (idx + 1) (offset + size * e.2.sum)

/-- rg.py:267: `n` rows from `pos`; the position afterwards and the rows. -/
def readRows (rg : List Byte) (cols : List (Column K)) : Nat → Nat → Nat × Py (List (List (GVal K)))
  | 0, pos => (pos, .ok [])
  | n + 1, pos =>
    let bs := (rg.drop pos).take (growSize cols)
    match growDecode cols bs with
    | .error e => (pos + bs.length, .error e)
    | .ok r =>
      let res := readRows rg cols n (pos + bs.length)
      (res.1, do return r :: (← res.2))

/-- rg.py:266-268: the segments. -/
def readSegs (rg : List Byte) (cols : List (Column K)) : List Int → Nat → Nat × Py (List (List (List (GVal K))))
  | [], pos => (pos, .ok [])
  | n :: ns, pos =>
    match readRows rg cols n.toNat pos with
    | (pos, .error e) => (pos, .error e)
    | (pos, .ok rows) =>
      let res := readSegs rg cols ns pos
      (res.1, do return rows :: (← res.2))

/-- rg.py:265-270: the entity at `self.idx`, from where the file is. -/
def Reader.readNext (r : Reader K) : Reader K × Py (List (List (List (GVal K)))) :=
  match r.index[r.idx]? with
  | none => (r, .error .indexError)
  | some e =>
    let res := readSegs r.rg r.cols e.2 r.pos
    match res.2 with
    | .error err => ({ r with pos := res.1 }, .error err)
    | .ok segs => ({ r with pos := res.1, idx := r.idx + 1 }, .ok segs)

/-- rg.py:252-270 `read`: seeking before the start raises `OSError` (an `.exception` here). -/
def Reader.read (r : Reader K) : Option Str → Reader K × Py (List (List (List (GVal K))))
  | none => r.readNext
  | some id =>
    match find (growSize r.cols) id r.index 0 0 with
    | none => (r, .error .keyError)
    | some (idx, offset) =>
      let p := (r.datapos : Int) + offset
      if 0 ≤ p then Reader.readNext { r with idx := idx, pos := p.toNat } else ({ r with idx := idx }, .error .exception)

end

end Rg
end Coral
