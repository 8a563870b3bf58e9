# Formal model of lecram/coral in Lean 4

## 1. Trusted base

* Lean 4.33.0's kernel. No axioms of our own, no `sorry`, no `native_decide`, no `bv_decide`.
  Every property theorem depends on at most `propext`, `Classical.choice`, `Quot.sound`
  (`AXIOMS.md` lists them theorem by theorem; `Verif/Axioms.lean` walks every declaration during the build and fails on
  any other axiom or if a theorem of `MANIFEST.json` is missing).
* The reading of the Python source. The theorems are about the model in `Verif/Model/*.lean`; each
  definition there cites the file and lines it models and the simplifications made. Nothing was run.
* The reading of Python and its standard library where the code calls it (`struct`, `heapq`, `bisect`,
  `list.sort`, `str.format`, `functools.lru_cache`, `json`, file objects). Each is modelled by a small definition
  in `Verif/Py.lean` or beside its use, named in the comment.

## 2. Modelling conventions

* **Exceptions are values**: `Py α = Except PyErr α`. Generators that may raise after some items are pairs
  (items yielded, `Option PyErr`).
* **Mutation is state passing**; a class becomes a structure and a method a function returning the new structure.
* **Numbers**: Python `int` is `Int`/`Nat` (exact). Python `float` arithmetic is modelled *exactly*: as `ℚ` (or any
  linearly ordered field) where only field operations and comparisons occur, and as `ℝ` with Mathlib's `sin`,
  `arctan`, `Complex.arg` (for `atan2`), `log` ... in `proj.py` and the spherical part of `coord.py`. IEEE rounding,
  overflow, NaN, infinities and signed zero are **not** modelled there. The exception are the modules `Floats*`
  (C152 and following), which model some functions again with every operation rounded: a finite double is a rational
  `m * 2^e` with `|m| < 2^53`, `e ≥ -1074` (`Verif/PyFloat.lean`), an operation is the exact one followed by `fl`,
  round-to-nearest-even, which is proved to give a nearest double. Overflow, NaN and signed zero are not modelled.
  In `shapefile.py` a double is an opaque 8-byte value (it is only packed, unpacked, compared).
* **Unbounded loops** (`while`) are either structural/well-founded recursions (then the termination proof is part of
  the model), or, where the code may diverge, the big-step relation `While cond body s t` of `Verif/Py.lean`;
  divergence is `¬ ∃ t, While cond body s t`.
* **Files** are byte lists (binary) or character lists (text); a reader is a byte list plus a position.
* When the code violates the property a user relies on, the model keeps the code's behaviour. We then prove the
  negation with a concrete witness (theorem name ends in `_violated`) and the strongest true part
  (name ends in `_partial`).

## 3. Layout

* `Verif/Py.lean` – Python semantics used by the models.
* `Verif/Model/<Module>.lean` – model of `coral/<module>.py`.
* `Verif/Spec/<Module>.lean` – small specifications, independent of the model.
* `Verif/Proofs/<Module>.lean` – helper lemmas.
* `Verif/Props/<Module>.lean` – the property theorems `Cnn_...`, each followed by non-vacuity examples.

## 4. Plan per property

| id | what is modelled | how it is proved |
|----|------------------|------------------|
| C01 | `BBox.__init__` on a point list, generic ordered field | fold invariant: bounds = min/max of prefix |
| C02 | `__or__`, `__bool__`, `area` | case split on zero area; violated for degenerate boxes |
| C03 | `__and__`, `has_point` | order reasoning, all boxes |
| C04 | `collide` | order reasoning, witness point = corner of intersection |
| C05 | `has_bbox` | order reasoning |
| C06 | `translate`, `scale`, `center`, operators | field identities |
| C07 | `__lt__`, `__eq__` and the operators `total_ordering` derives | violated (equal areas); partial: strict weak order |
| C08 | `__hash__`/`__eq__` with CPython's integer hash, tuple hash abstract | violated (hash(-1) = hash(-2)); partial |
| C09 | `Buffer`, with masks as bit operations | refinement to a list deque, induction over op list |
| C10 | `nearest` on ℚ | floor/ceil case analysis |
| C11 | `sqr_fit`, `open_no_slit`, `simplify` over the modelled Buffer | loop invariant (prefix yielded ++ buffer is a sublist) |
| C12 | same | violated by spikes; partial on paths without revisits: output = first, corners, last |
| C13 | `closed_no_slit` | violated for rings with more than k corners; partial |
| C14 | `collinear` | algebra, explicit line |
| C15 | `corangle` on ℝ by well-founded recursion | induction |
| C16 | `haversine` on ℝ | unit vectors in ℝ³, `InnerProductGeometry.angle` |
| C17 | `destination`, `bearing` | trig identities + `Complex.arg` |
| C18 | `midpoint` | normalised vector sum |
| C19 | `bearing2cardinal`, `bearing2hours` on ℚ | rational mod arithmetic |
| C20–C28 | all projection classes on ℝ | trig/hyperbolic identities |
| C29 | `cachenames`, `loadnames` as text | list induction |
| C30 | `save`/`load` with the JSON document as a tree | case analysis on class; violated for ellipsoidal and conic ones |
| C31 | `point` | floor division |
| C32–C37 | `FVar`, `IVar`, `SVar`, `GRow`, big-endian struct codes, UTF-8 | round-trip lemmas, list induction |
| C38–C39 | `base128`, `writevlv`, `readvlv`, signed variants | strong induction |
| C40–C44 | `pf.Writer`, `pf.Reader` on byte lists | parser/printer round trip with trailing input |
| C45–C52 | canvases as byte lists, `line`, `scanpolygon`, `fillpolygons`, `blend`, `save` | index arithmetic, loop invariants |
| C53–C54 | `Gradient` | sortedness, bisect lemma |
| C55–C57 | `damlev` dictionary DP | DP table = recursive distance = minimum over alignments |
| C58–C60 | `jaro`, `mapping`, `ascii` | direct |
| C61 | `abbreviations` in full, the undefined global `extras` as an optional parameter | direct |
| C62, C67 | LRU cache state machine | invariant: every entry is (x, f x) |
| C63–C66 | `avg`, `var`, `covar`, `corr`, Gini | sums over lists/Finset |
| C68–C72 | tables as field list + rows | list induction, text splitting lemmas |
| C73–C80 | `Canvas` emitting tokens, small PostScript interpreter | refinement invariant over call histories |
| C81–C83 | `tqdm` driver with arbitrary clock, terminal line | induction over items |
| C84–C96 | `.shp/.shx/.dbf` writer and reader on bytes | record-wise round trip |
| C97–C99 | `rg` writer/reader | violated (missing import); partial with the import supplied |
| C100 | dbf field descriptors on bytes | printer/parser round trip; violated for long names and spaces |
| C101 | `rg.Writer.write` with failing rows | trace of bytes written; violated when a later row fails |
| C102 | Newton loop of `EckertIV.geo2rect` | Newton on a concave function: monotone, bounded, so the loop ends; error bound |
| C103, C105–C107 | `scale()` and area/angle claims of the projections | derivatives of the coordinate maps (`HasDerivAt`), first fundamental form |
| C104 | `Frame.planify` | composition of projection and `simplify` |
| C108 | latitude loop of `EMercator.rect2geo` | contraction with factor e², error bound of every round |
| C109–C112 | `aaline`, `strokepolygon` of gray/colour canvases | exact list of assignments; coverage as a separate spec |
| C113–C115 | `sf2pf`, errors returned by `pf.Writer.close`, `radiusat` | composition with C41; law of cosines; ellipse equation |
| C116 | `geocentroid` as partial-correctness relation of its loop | returned centre has the area centroid of its chart at 0; violated cases: raising, the wrong side of a pole, a search that never ends |
| C117 | `pprint` | column positions of every cell |
| C118–C119 | `Gradient.get` outside [0, 1], the predefined gradients | bisect with Python index wrap-around; piecewise formulas |
| C120–C121 | `iterShapes`, `iterRecords` as generators sharing the file position with the loop body | invariant on the position; non-termination as `¬ ∃` result |
| C122 | `shapeRecord` | composition of C84, C85, C88, C90 |
| C123–C125 | the records of types 11, 13, 15, 18, 21, 28, 31 of the C84 model | content of a record, then reading it, lifted to files |
| C126 | `poly` with its default list for `partTypes` as a shared list | direct |
| C127 | `addtext` and the text procedures of `DEFS` run by the PostScript model; fonts are any function giving the box of a text | simulation of the whole file |
| C128 | the line written by `addtext`, read by a complete scanner of PostScript string literals | nesting of parentheses |
| C129 | `addcircle` after any calls, with the current path of the interpreter | simulation of the whole file |
| C130 | all calls; the depth of the operand stack | simulation of the whole file |
| C131, C132 | `Canvas.export`, `export` as commands; a POSIX shell splitting them into words | induction over the command, lengths of words |
| C133 | `Canvas.export` as actions on a disk; interleavings of two of them | direct |
| C134, C135 | `animation` as actions on a disk, with the names of frames; `gs` and `convert` as functions on disks | induction over frames |
| C136, C137, C138 | `bbox`/`zbox`/`mbox` of `Writer`, editors that opened a file (`Opened`) | folds of min and max against `Extremes`; witnesses |
| C139 | `Editor(name)` followed by `saveShp` | records read are written with the same bytes (`Again`), by type |
| C140 | `Editor(name)` followed by `saveDbf`, `repr` of blank bytes | C88 and C100, then rewriting |
| C141, C142 | `Editor.delete` and `Editor.point` with addresses, for shapes that are there | cases on the arguments; induction over the rounds of the loop |
| C143 | `record(*values)`, `record(**values)` | case analysis; length of the file against what `records()` reads |
| C144, C145 | a disk as a map from names to bytes, `os.path.splitext`, `save(target)` and `Reader(target)` | what each step writes; injectivity of the names for equal roots |
| C146 | the loop of `tqdm` with a clock as an arbitrary function | induction over the items |
| C147 | `poly` on a heap of lists with addresses | induction over the points; fresh addresses for tuples |
| C148 | `Gradient(points)` with the list it leaves | sorted lists are fixed by the sort; lengths |
| C149 | `saveShp`/`saveShx`/`saveDbf` into a file with a content and a position | the writing commutes with laying the file over the old content; reading with more bytes at the end |
| C150 | `load`, `Reader(shp=, shx=, dbf=)`, the search branch of `shape(i)` | cases; determinism of reading |
| C151 | `load` on a reader with offsets and header length | the byte where the header should end is the first of a name |
| C152 | `nearest` again with `x + 0.5` rounded to a double (`PyFloat.fl`, proved to give a nearest double, monotone, exact on doubles) | violated at 0.49999999999999994 and odd integers above 2^52; exact for every other double |
| C153 | `blend` with each of its five operations rounded | range, ends, closeness proved; monotonicity violated for neighbouring floats, proved for steps of 2^-39 |
| C154 | `area`, `__bool__`, `__or__`, `__and__` with rounded area | violated by underflow; proved for sides zero or at least 2^-537 |
| C155 | `center`, `translate`, `scale` rounded | proved from monotonicity of rounding; there-and-back violated, bounded by the rounding of the additions |
| C156 | `avg`, `var` rounded (`fsum` rounds once) | sign and error bound proved; between-ness violated, sufficient condition proved |
| C157 | `Gradient.get`, `get_hex` rounded | error bound by tracking each rounding, digits from it; equal stops violated |
| C158 | `FVar.index`, `value` rounded, integers converted to floats | range, monotonicity, error bound proved; re-encoding violated at the last index, proved elsewhere |
| C159 | bounds, storing and restoring coordinates of P files rounded | error budget of all roundings against half a unit of the 4-byte integer; 8 bytes violated |
| C160 | the wrapping loops of pf.py on floats (`While`) | termination exactly characterised by the size of the last bit |
| C161 | `sf2pf` from the bytes of the shapefile on (`Converts`), histories of `poly` calls | composition of C84, C88, C91, C113 and C41; success from C113 |
| C162 | `Buffer.__str__` with its loop as a relation (it may not end), after any history of calls | the queue representation of C01's proof, induction on what is left |
| C163 | `bearing2cardinal`, `bearing2hours` on floats (`fmod` as CPython computes it) | remainder shown exact on the grid of 2^-44, errors added up, uniqueness of the nearest wind |
| C164 | the loops of `corangle` on floats (`While`), `math.pi` as a rational | as C160; bounds of π from Mathlib |
| C165 | the loop of `EMercator.rect2geo` with an arbitrary (rounded) step | contraction of the exact step; loops that end are at fixed points of the rounded step; monotone steps on finite sets end; two-element cycle as counterexample |
| C166 | `aaline` with every operation rounded to a double | the running sum drifts by at most 2⁻³⁵ per column (`ordinate_close`), the weight of a pixel is a 1-Lipschitz function of the height, so it is off by at most 2⁻¹⁸; the drift is less than the reciprocal of the width, so rows stay between the ends. The gray levels follow with C153. |
| C167 | `Frame.point` (with the floor division of CPython floats) and `sqr_fit`, every operation rounded | the rounded quotient of a multiple is within 1/4 of the multiplier, which the final step of `//` corrects; C152 for `nearest` |
| C168 | `covar`, `std_dev`, `corr` rounded, `math.sqrt` any correctly rounded root (one is shown to exist) | every rounding as a factor, Cauchy–Schwarz for the rounded deviations; range and constant columns violated |
| C169 | the `__repr__` methods; a small evaluator of Python expressions as the spec | words and tokens, the stack of open calls; variables violated for all inputs |
| C170 | `Editor.__init__` on a disk, an editor without attributes, the calls it has from `Writer` | case analysis of the constructor, composition of C84, C140 and C144; missing files and names with dots violated |
| C171 | `Reader.__dbfHeader`, `record`, `records` on arbitrary bytes | places of the bytes that each call reads, induction over the loop; files without fields violated |
| C172 | `radiusat`, `haversine` rounded, the library functions any correctly rounded ones (such a library is shown to exist) | absolute errors through the formula, Hölder bound of the angle, power series with remainder for the antipodes; antipodes violated |
| C173 | `AzimuthalEquidistant.__init__`, `geo2rect` rounded | as C172, compared with the model over the real numbers; positions near the centre violated |
| C174 | `signed_area` and the grouping of rings rounded | errors of a sum from left to right, compared with the shoelace sum; thin rings violated |
| C175 | `gini_kakwani`, `gini_deaton` rounded | relative errors as powers of one factor, over all pairs; the range from 0 to 1 violated |
| C176 | `strerr`, `mapping` rounded | fractions of small numerators and denominators stay apart when rounded |
| C177 | `jaro`, `jaro_winkler` rounded | relative errors, monotonicity of rounding, exact differences near 1 |
| C178 | `Mercator.geo2rect`, `rect2geo` rounded | Lipschitz bounds of log(tan), of the Gudermannian and of arctan; errors step by step |
| C179 | `destination` rounded | sin grows away from the poles; direction of a vector with errors by the argument of a quotient; the pole raises |
| C180 | `bearing` rounded | the vector has the length sin(distance); the same lemma on directions |
| C181 | `midpoint` rounded | error of the root of a sum of squares; the same lemma on directions |
| C182 | `TransMercator.geo2rect`, `rect2geo` rounded | spacing of floats below 1; Lipschitz bounds of artanh and tan; direction of a vector with errors |
| C183 | `Stereographic.geo2rect`, `AzimuthalEqualArea.geo2rect` rounded | errors of the divisor, of the quotient and of its root; counterexamples near the antipode by exact evaluation |
| C184 | `__str__` of `IVar`, `FVar` and `SVar` | texts split at the last occurrence of a character |
| C185 | `BBox.hypot` on real numbers | monotonicity of sums of squares and of roots |
| C186 | `ConicEqualArea` on floats (`__init__`, `geo2rect`, `rect2geo`, `scale`) | error bounds through sums, products, roots and quotients; failures at poles by computing the rounded sines, cosines and roots |
| C187 | `ObliqMercator.geo2rect` and `rect2geo` on floats | error bounds; the quotient `v / h` followed by `atan` is the direction of a point near `(h, v)`, so its error does not grow with the quotient; failure by computing the rounded sines and cosines of 8 degrees |
| C188 | `TransMercator.scale` and `ObliqMercator.scale` on floats | one lemma on `1 / sqrt(1 - b*b)`; failures by rounding near the quarter turn |
| C189 | `EMercator.rect2geo` on floats, with `math.exp` overflowing | each rounded operation of the step is monotonic on [-π/2, π/2], so the latitudes rise or fall and there are finitely many floats; accuracy from the contraction of the exact step |
| C190 | `EMercator.geo2rect` on floats | error bounds of logarithms: relative errors of the factors add up |
| C191 | `Mercator.scale` and `EMercator.scale` on floats | error bounds of a quotient; the cosine of the float next to π/2 |
| C192 | `EckertIV.geo2rect` on floats, with its loop | Newton's iteration from one side: each round either ends the loop or moves by at least 9·10⁻⁷ towards the pole, and rounding cannot carry it over the pole |
| C193 | `EckertIV.rect2geo` on floats and the round trip | the greatest numerator is `C`, so the second inverse sine never gets more than 1; the left side changes at most four times as fast as the sine |
| C194 | `PReader.read` with indices from the end | the slice and the index agree on negative numbers, as the two lists have the same length |
| C195 | `jaro`: the matches and the value, empty names | the scan counts the places with a partner; `find` succeeds exactly if there is a place in the window; the counter of transpositions by induction over the places, with the greatest partner so far |
| C196 | `std_dev` and `corr` of equal numbers | variance zero exactly if all are equal (C63) |
| C197 | numbers of the attribute file that were left blank | cases on the stripped bytes |
| C198 | shapes without parts in a file of lines or polygons | the loop of the file length, then the loop of the records |
| C199 | column names that tables refuse | the class of the rows is made before any row; counting the chosen columns for names that the file lacks |
| C200 | `collinear` on floats | exactness of differences and products on grids; error of a product of two rounded differences; two counterexamples |
| C201 | `sqr_fit` and `simplify` on floats | the rounding of `nearest` (C152) and of one division; away from the middle both steps give the exact result |
| C202 | `Writer.__getFileObj` with `os.path.split` and `os.makedirs` | induction on the length of the path: the head of a split has the names but the last; the recursion stops at the lowest thing that exists |
| C203 | writing and reading attributes in single-byte encodings | a byte below 128 stands for its ASCII character only, so white space is seen alike in bytes and text; the rest as for C88 |
| C204 | `BBox.hypot` on floats | the triangle inequality of the plane for the errors of the sides; nearest floats keep the order |
| C205 | the three placing lines of `Canvas.save` on floats | errors of the scale and of the centre carried to the place of a point; without an error term violated |

All properties of the list are expressible in the model; none is `not_applicable`.

## 5. What is modelled and what is not

Modelled, every function of `bbox.py`, `coord.py`, `frame.py`, `gradient.py`, `grid.py`, `names.py`, `pf.py`, `proj.py`,
`raster.py`, `rg.py`, `shapefile.py`, `stats.py`, `table.py`, `tqdm.py`, `vector.py`, `defs.ps`, except:

* `__repr__` of `_Array`; `__len__` of readers and rows.
* Opening and closing files (`__getFileObj`, `close` of readers): a file is its content.
* `shapefile.b`, `u`, `is_string` (Python 2/3 text conversion; text is Python 3 text here), `Editor.select`,
  `Editor.validate`, `Editor.__fieldNorm`, `test`.
* `Canvas.export`, `vector.export`, `animation` are modelled as what they write, run and remove. What the shell, Ghostscript
  and ImageMagick do with a command is specified in `Spec/Shell.lean`; exit codes, failures of these programs and page
  numbers in file names (`%d`) are not.
* `recipes.py`, which is not meant to run.

Simplifications that matter for reading the theorems:

* Floats are exact numbers (section 2), except in C152 and the other properties that say so. A theorem about `proj.py` or `coord.py` says what the formulas compute, not what
  rounding does to it. A `while` loop that waits for two floats to agree is a loop over reals in the model.
* `json`, `struct`, `heapq`, `bisect`, `sorted`, `str.format`, `lru_cache`-like dictionaries, UTF-8: re-implemented in
  Lean in `Verif/Py*.lean`, `Verif/Utf8.lean` from their documentation. `float(text)` of the dbf reader is a parameter.
* PostScript: a small interpreter for the operators the canvas emits (`Spec/PostScript.lean`); pixels are not rendered.
* Time in `tqdm` is an arbitrary sequence of clock readings; the terminal is one line of cells.
* Dates in the dbf header are parameters. Text files are lists of characters with `\n` line ends.

## 6. Findings

Claims of the list that the code does not meet; each has a `_violated` theorem (a concrete execution of the model, or a
statement for all inputs of a kind) and `_partial` theorems for what does hold. `MANIFEST.json` has the details.

* C02 (Union covers both boxes and nothing smaller does): The code skips zero-area boxes, so the full claim is refuted by C02_union_violated; proved for boxes of positive area, and C02_union_exact_partial says for which pairs of boxes exactly it holds.
* C07 (Box comparison operators form a consistent order): Strictness/transitivity of < and > by area proved; the equal-area behaviour of <= and >= contradicts the claim (C07_order_violated); C07_exact_partial says exactly when > and >= mirror < and <=.
* C08 (Box equality means equal corners): Equality goes through hash(); collisions refute the claim (C08_equality_violated), the partial theorem covers collision-free hashes.
* C12 (Open simplification keeps every corner and drops only collinear points): False for paths with slits, i.e. the same corner twice in a row (C12_open_simplify_violated); proved for every other path and buffer capacity.
* C13 (Closed simplification preserves the ring): The order is wrong for rings with more turns than the buffer holds (C13_closed_simplify_violated: ten turns, buffer of 8); which points are visited is proved for all rings, the order for rings of at most k turns without slits.
* C24 (Azimuthal equidistant preserves distance from the centre): Refuted for other coordinates of the centre's place (ZeroDivisionError, C24_violated); proved otherwise.
* C25 (Azimuthal projections round-trip): Refuted: atan instead of atan2 loses half the sphere, the border and the centre divide by zero; proved for the near half.
* C28 (Oblique Mercator round-trips on its near side): Refuted on the far half (C28_violated_far) and its border; proved for the near half.
* C29 (Name cache round-trips and selects exactly the colliding entities): Proved for PF files without repeated names; C29_violated: the second of two entities of the same name is judged by the first one's polygons.
* C30 (A saved frame can be loaded): Proved for all seven classes on the sphere, over the reals and with json taken as faithful. C30_violated_*: load() of an ellipsoid frame raises NameError, save() of a conic frame raises AttributeError.
* C33 (FVar can encode every value of its declared domain): In a non-nullable column exactly the numbers within half a quantum of maxv raise struct.error (C33_fvar_domain_exact); in a nullable column None does (C33_fvar_domain_violated).
* C35 (IVar.encode and decode are inverse): encode and decode always raise AttributeError because fmt is never assigned. With fmt supplied every integer in range round-trips and None raises struct.error.
* C43 (Writer.write terminates on every coordinate): Refuted: a latitude above 90 loops forever; the partial theorems show this is the only cause.
* C44 (Reading a damaged P file fails cleanly): Refuted: a cut inside a name hangs; the partial theorem characterises every proper prefix.
* C50 (fillpolygons fills the interior): False as stated: orientation matters, a polygon reaching the right border is not filled, and polygons sharing a vertical side interfere (C50_fill_violated). Proved for rows whose marks alternate starting upwards and end before the border, in particular for every convex polygon on the canvas with distinct vertices that are not all on one line, given clockwise (C50_fill_all_convex_partial), and every rectangle.
* C51 (A new canvas is uniformly the background): False for BWCanvas with bgcolor=1 (C51_background_violated); proved for backgrounds 0 and 255, and for gray and colour canvases.
* C57 (damlev is a distance): False: ca -> ac -> abc (C57_triangle_violated). Proved: it holds with the factor 3/2, which that triple reaches, and damlev is at most 3/2 of the true Damerau-Levenshtein distance (edits one after the other).
* C58 (Jaro similarity is normalised): jaro can exceed 1, e.g. jaro('aaaa','a') = 7/6 (C58_jaro_violated), by any amount (C58_stars_violated: the proved upper bound is reached); the partial theorem gives what holds.
* C61 (abbreviations gives unique abbreviations): abbreviations uses a global name extras that is defined nowhere: every call with at least one name raises NameError (C61_abbreviations_violated). With such a list supplied as a parameter: an abbreviation has at most n letters, a longer name gets n of its letters in order, different from all earlier ones; names no longer than n are not compared, so two of them can get the same abbreviation (C61_violated_short).
* C67 (cache_clear empties every statistics cache): clear_cache forgets the caches of max and min (C67_clear_violated); proved for the others.
* C69 (readfile(keys=...) selects the named columns): Refuted when keys are given in another order than in the file (C69_columns_violated); proved for keys in file order.
* C73 (Every shape is painted with the requested ink): Proved when every ink is of one kind (gray or rgb) and no shape has fill = stroke. Otherwise false: the state caches gray and colour separately, so switching kinds can leave the wrong ink (C73_violated_kinds); with fill = stroke the restored state differs from the cached one (C73_violated_same).
* C74 (Line width and dash caching is faithful): Proved for histories in which the caller does not change a dash list after passing it. Otherwise false: the pattern is stored by reference, so a changed list passed again is taken as already set (C74_violated).
* C75 (The canvas bounding box covers everything drawn): Proved for shapes of nonzero extent in both directions, with no text (which does not extend the box). Otherwise false: a box of zero area is dropped by BBox union, e.g. a horizontal line (C75_violated).
* C81 (tqdm yields exactly the items of the iterable): Proved when total is given or the iterable has a length. Otherwise false: format_meter compares n > None, so the first next() raises TypeError (C81_violated_all).
* C86 (Saving again after adding shapes keeps the index right): Proved for saves repeated without additions. Otherwise false: _offsets is never cleared, so the entry for the first added shape leads to the first record (C86_violated_all).
* C87 (The file length field matches the file): Proved for all types but 13, 15, 18, 28, and for 31 when z and partTypes are complete. For 13, 15, 18 and 28 the header is too short in every file with a shape (C87_violated, C87_violated_elevations).
* C88 (dbf records round-trip): Proved for non-blank ASCII text and integers in files with at least one record; saving works under FieldOk (C88_saving_works). False for blank text (bytes come back), text that is not ASCII (the size is counted in characters) and files without records (records() raises).
* C89 (shapeRecords pairs each shape with its record): Proved when no record is deleted. False otherwise: records() leaves deleted records out while shapes() keeps all shapes (C89_violated).
* C90 (Record indices behave like list indices): Proved for at least one record, except the index -n. False at -n (C90_violated_first) and without records (C90_violated_empty).
* C92 (__geo_interface__ partitions the points): Lines: proved. Polygons: proved for shapes with two coordinates per point, as read from files. A polygon with several parts made by Writer.poly has four coordinates per point and its interface raises ValueError (C92_violated_writer).
* C94 (Editor.delete(i) deletes shape i): Proved for every index but 0; delete(0) does nothing (C94_violated).
* C95 (Editor keeps shapes and records balanced): False: record() without arguments adds no record, so the shapes run ahead (C95_violated); without fields IndexError (C95_violated_no_fields). Holds when there were one or two more records than shapes.
* C96 (Measures written are read back): Proved when the file has measures below and above zero. Otherwise false: the header's range then contains 0.0, which the reader takes for no measures at all (C96_violated).
* C97 (A RangeGrid data set can be read back): False: rg.py uses collections without importing it, so no data set can be opened (C97_violated, C97_violated_written). With the import (parameter imported = true) it holds for ids without blanks and entities with segments; entities without segments make the index unreadable (C97_violated_no_segments). C97_none says what a missing value does in a column of each kind.
* C100 (dbf field descriptors round-trip): Proved for names of at most 10 ASCII characters without spaces and NUL that do not start with white space or "Deletion". Longer names lose everything after the tenth character (C100_violated_long), spaces become underscores (C100_violated_space). A field whose name begins with Deletion is dropped when saving, and the values of the later fields move into the wrong ones (C100_violated_deletion).
* C101 (A failed RangeGrid write leaves the data set intact): Holds when the first row fails; otherwise the rows before the failure stay in the file and later entities are read from the wrong place (C101_violated and example).
* C109 (An anti-aliased line gives every column the weight it covers): Exact list of assignments for every slope; the weight of the right end column is the uncovered share (violated, with witness).
* C111 (An anti-aliased line mixes each pixel once with its weight): Exact: proved for every line between two pixels of the canvas with no end in the last row (for lines higher than wide: no end at the last pixel of all); every other line raises, on every canvas and in every colour (C111_gray_violated, C111_colour_violated).
* C112 (strokepolygon of gray and colour canvases draws every side anti-aliased): Proved when every side fits (C111) and no vertex is repeated at once; tuple colours on gray canvases. Number colours, repeated vertices and sides that do not fit always raise (violated, for all inputs of this kind).
* C113 (sf2pf carries every shape of a shapefile into the P file): C113_null_violated: one null shape (or point shape) in the file makes the whole conversion raise AttributeError, because such shapes have no parts. Otherwise as claimed (C113_convert_partial, C113_works_partial). shapeRecords() itself is C88 and C89.
* C116 (geocentroid returns the centroid of the region on the sphere): C116_reached_violated, C116_rectangle_violated: if the centroid is the centre tried, rect2geo divides by zero, e.g. for every rectangle around (0, 0). C116_flat_violated: one polygon without area makes it raise. C116_far_side_violated: across a pole the result can be a place a half turn away from the region. C116_endless_violated: it does not always end; for three polygons, two of them given in the other direction, and a certain box the search alternates between two places forever. Otherwise as claimed when it returns (C116_centroid_partial). Over the reals; numbers are not floats.
* C118 (A gradient refuses positions outside [0, 1]): C118_below_violated: for no gradient is a negative position refused; the index -1 wraps to the last stop and get returns a point of the line from the first to the last colour, get_hex '#xxx' or similar.
* C120 (iterShapes gives the shapes of the file, in order): Proved for every file when the body does not use the geometry file, and when round n looks up shape n. Refuted otherwise: iterShapes shares the file position with shape(k), so a loop that looks up the same shape k in every round never ends unless k is the last, and stops after the first shape if k is the last.
* C121 (iterRecords gives the records of the file, in order): Proved for every file when the body does not use the attribute file, and when round n looks up record n. Refuted otherwise: looking up record k in every round gives the first record and then record k+1 again and again.
* C122 (shapeRecord(i) pairs the i-th shape with the i-th record): Proved for every index i with -n < i < n and for the IndexError outside; missing: i = -n raises IndexError instead of giving the first entry (restrictIndex compares abs(i) with n - 1); records come back in the sense of C88.
* C124 (Lines, polygons and multipatches with elevations can be saved and come back): False: poly() never sets the attribute z, and saving reads it, so a file with such a shape can never be saved (AttributeError). Proved for shapes that were given z, one value per point, and one part type per part.
* C125 (Multipoints with elevations or measures come back): False for every file with a shape: neither the number of points nor the points are written; reading raises TypeError or gives shapes without points.
* C126 (Part types default to the type of the shape): False: the default argument is one list shared by all calls; every multipatch after the first gets the part types of the first. Proved for the first call, for line(), and when part types are given.
* C127 (A text is anchored where it is put): False unless the box of the glyphs starts at the origin: every text is displaced by exactly the lower left corner of that box, e.g. letters with descenders are put too low. Proved: drawn once in the right size and font, displaced by exactly that corner for every anchor; exact iff the corner is zero.
* C128 (A text is drawn as it was given): False: nothing is escaped. Proved as an iff: read as given exactly when the parentheses are balanced and there is no backslash and no carriage return.
* C129 (A circle is nothing but a circle): False after a text, or a shape with neither fill nor stroke: a line leads from where that ended to the circle, since addcircle begins no new path. Proved exactly when it is the circle alone.
* C130 (A drawing leaves the operand stack of the interpreter as it was): False for rounded polygons: arcto leaves four numbers per corner. Proved: exactly that many are left and none without rounded polygons.
* C131 (Canvas.export writes the image where it is told): False for an apostrophe in the path. Proved as an iff.
* C132 (export passes file names to Ghostscript unchanged): False for blanks and all characters that mean something to a shell, which Canvas.export can take. Proved as an iff.
* C133 (Exports do not interfere): False for exports at the same time: all share /tmp/tempeps.ps, so an image can show another canvas and an export can fail on removing the file. Proved for one export at a time, from any disk. Ghostscript is taken to draw its input on its output file.
* C134 (An animation shows its canvases in order at one scale): False for names with blanks: nothing is written there. Proved for plain names, with convert taken to put its input images one after the other.
* C135 (An animation leaves its canvases as they were): False always: every canvas with an extent has the common box afterwards, so a later save or export shows it smaller. Proved: nothing but the box changes.
* C136 (Null shapes can be kept among other shapes): False: a file with a shape without points can only be saved if its type is 0 (saving raises otherwise), and if the first shape is null and no type was given, all other shapes are saved as null shapes without any error. Proved: files of null shapes only come back.
* C138 (zbox() and mbox() are the exact ranges of elevations and measures): False for measures: 0 is always counted in, so the range is right exactly if it contains 0. False in an Editor that opened a file: both ranges are [0, 0], since the points it holds have no third and fourth number. Proved: zbox of a Writer whose points all have elevations, and mbox up to the zero. A point without the coordinate hides the coordinates of the later points of its shape (C138_hidden_violated).
* C139 (Opening a shapefile in an Editor and saving it changes no shape): False for types with measures of several points (13, 15, 18, 23, 25, 28, 31): the file opens, but saving raises IndexError. Proved for types 1, 3, 5, 8, 11 and 21 (with at least one part where there are parts): the bytes of the records are the same.
* C140 (Opening a shapefile in an Editor and saving it changes no attribute): False for blank values: an empty text is read as a bytes object, of which str() is then written, so the value becomes the text b'. Proved for values and names that come back (C88, C100): the bytes of the file are the same.
* C141 (Editor.delete deletes exactly the part or point that is named): False: shapes cannot be indexed, so deleting a part, or a point of a part, raises TypeError for every shape that is there; delete(point=1) on points deletes half of the shapes. Proved: what is left is always a sublist of the shapes, unchanged, and records are never touched.
* C142 (Editor.point with an address updates that point): False: with a shape that is there and a part, TypeError is raised, also with addr; with a shape alone the address is ignored and a new point is added. Proved: no shape that was there is changed. Numbers of shapes that are not there (for which [] is appended to the list of shapes) are not modelled.
* C143 (record() keeps values with their fields): Proved for positional values, in a Writer and in an Editor that opened a file, and for keywords for all fields. False for keywords that leave a field out: the values of the later fields move up, and records() of the saved file raises.
* C144 (A saved shapefile is what opening its name gives, and saving under another name leaves it alone): Reader(target) opens what was saved, for all targets. Proved that targets with different roots (the name without its extension) do not interfere. False for names that differ only after their last dot: saving x.b overwrites x.a.
* C145 (A save that raises leaves the files as they were): False: if a record cannot be written, the new geometry is on disk with an attribute file that is cut off; if a shape cannot be written, the old .shp is gone while the old .shx and .dbf are still there. Proved: with no shape type and no shapes nothing is touched, and files of other names are never touched.
* C147 (Adding a shape does not change the arguments, and changing the arguments later does not change the shape): False for points that are lists: they are padded in place to four numbers and are part of the shape, so a later change to the list changes the shape; rings that are not closed are closed in the list of the caller. Proved: with tuples for points no list of numbers is changed and the shape does not depend on any of them; shapes that are not polygons leave the lists of points alone. That two parts may be the same list is not modelled.
* C148 (Creating a gradient leaves the list of stops alone): False: the list is sorted and stops at 0 and 1 are added to it. Proved: it stays as it was exactly if it is sorted and reaches from 0 to 1.
* C149 (Saving into open files gives the files that saving by name gives): False: the files are not truncated. Proved: the result is the file saved by name over the older content, so it is the same file if the older content was not longer; older rests of .shx and .dbf are ignored by the reader, but after a longer .shp `shapes()` gives more shapes than were saved or raises.
* C150 (A missing file matters only to what depends on it): False for files opened by name: a missing .shx or .dbf raises at once. Proved for open files: what is there is read, without .shx `shape(i)` is the i-th of `shapes()`; but shapes alone cannot be counted from the end, and indices out of range raise TypeError.
* C151 (Loading another shapefile into a reader is like opening it with a new reader): False: the offsets of the first index and the length of the first .dbf header are kept. Proved: `shape(i)` goes to the place the old index tells, loading a data set with at least as many fields always raises; `shapes()` is right, and everything is if no single shape was asked for and the numbers of records agree (geometry only).
* C152 (nearest() rounds floats to the closest integer): Floats are modelled as the rationals m*2^e with |m| < 2^53, e >= -1074 and round-to-nearest-even (no overflow). Violated exactly at |x| = 0.49999999999999994 and at odd integers between 2^52 and 2^53 in absolute value: there x + 0.5 is rounded up and the result is one further from zero. The partial theorem covers every other finite float.
* C153 (Alpha blending on floats stays in range and follows alpha): The range, the ends, the closeness (1/2 + 2^-40) and agreement with exact arithmetic away from halves are proved for all floats. Violated: monotonicity for neighbouring floats, e.g. background 167, foreground 198, two adjacent alphas near 0.4355 give 181 and then 180. Proved instead: an alpha larger by at least 2^-39 never gives less of the foreground.
* C154 (Union and intersection of boxes of floats do what they do in exact arithmetic): Violated: the area of a box with both sides 2^-600 underflows to 0, so the box is false, unions lose it and its intersection with itself is empty. Proved for all boxes whose sides are zero or at least 2^-537 long; the exact condition (product of the rounded sides above 2^-1075) is C154_true_iff_area. Overflow to infinity is not modelled.
* C155 (Moving, scaling and centring boxes of floats keeps them sound): Centre, order of corners and moved points are proved for all floats. Violated: there and back; a box between 0.25 and 0.375 moved by 2^52 and back has no extent. Proved instead: the distance is bounded by the rounding of the two additions, and it is exact when the moved corners are floats (C155_there_and_back_exact).
* C156 (Averages and variances of floats): Violated in part: the average of three times 0.1 is above 0.1 (`C156_average_between_violated`). The partial theorem gives a sufficient condition. Overflow to infinity is not modelled.
* C157 (Gradients on floats): Violated in part: between two white stops the colour can be #eee (`C157_equal_stops_violated`). The error bound, exactness at stops and the digits are proved for all gradients and all floats.
* C158 (Real columns of grids on floats): Violated in part: the last index can stand for a number above the maximum, which cannot be encoded again (`C158_stable_violated`). Range, monotonicity and error bound are proved in full; overflow to infinity is not modelled.
* C159 (Coordinates of P files on floats): Violated for 8 bytes (`C159_eight_bytes_violated`) and for boxes whose extent is lost by rounding (`C159_narrow_violated`); proved for 1, 2 and 4 bytes and boxes that do not collapse.
* C165 (EMercator.rect2geo ends, and its latitude is as exact as its arithmetic): In exact arithmetic the loop ends on the equator (and on spheres) only (C165_exact), so that it ends is due to rounding: it does if rounding keeps the order of the computed latitudes (C165_ends), and need not otherwise, however exact the steps are (C165_endless_violated). The error bounds hold for every way of rounding; how large eta is for floats is not modelled (sin, atan, exp, pow of libm).
* C168 (Correlation of float columns): Violated in part: corr of (0, 0, 1) with itself is 1 + 2^-52 (C168_range_violated), and of the constant column (0.1, 0.1, 0.1) with itself is 1 rather than ZeroDivisionError (C168_constant_violated). Proved: the excess over 1 and the error of the correlation with itself are at most (n + 9) * 2^-51 for floats that are zero or at least 2^-300 in size and n up to 2^40; symmetry and change of sign hold to the last bit. Overflow to infinity is not modelled.
* C169 (The text of an object evaluates to the object): Violated for variables: the texts of IVar, FVar and SVar lack the name, so every argument moves one place; evaluating raises AssertionError or makes another variable (C169_ivar_violated, C169_fvar_violated, C169_svar_violated). Proved for boxes (any kind of number whose text reads back; integers outright) and buffers. The evaluator in Verif/Spec/Repr.lean reads numbers, True, False, tuples and calls with positional arguments. str() of variables is C184.
* C170 (Editor(name) edits the shapefile of that name): Violated: for a name without a file, or something other than a string, the constructor returns an object on which every call raises AttributeError (C170_missing_violated, C170_object_violated); saveDbf(target) of it empties an existing .dbf before it raises (C170_emptied_violated); Editor('x.a.shp') holds the contents of x.shp because the extension is taken off twice (C170_other_file_violated). Proved: contents for names without more dots (C170_contents_partial), from saving to editing (C170_saved_partial), and an empty editor without a name (C170_new). Missing: Editor.point, which overrides Writer.point, is modelled separately (Model/EditorOps).
* C171 (Deleted records of an attribute file are left out, and only they): Violated only for files without a field: records() then gives nothing (C171_records_violated). Proved for all other files with records and a header length other than zero: which records are deleted (C171_deleted), the list of rows (C171_records_partial), their width (C171_width), and the end of the field descriptors (C171_terminator).
* C172 (Distances between any two positions on floats): Violated for antipodes: haversine(0, 8, 180, -8) raises ValueError with a correctly rounded library, as sin(x)**2 + cos(x)**2 is rounded to 1 + 2**-52 and math.sqrt gets a negative number (C172_antipodes_violated). Proved for positions at least 2**-20 radians (about 6 metres) from each other's antipodes: the call returns and the error is at most R * 2**-20 (C172_close_partial, C172_returns_partial). Assumed: sin, cos, atan2 and sqrt are correctly rounded; such a library is shown to exist. Overflow to infinity is not modelled.
* C173 (The azimuthal equidistant projection near its centre): Violated near the centre: other positions on the equator within 2**-27 radians of a centre on the equator raise ZeroDivisionError (C173_near_centre_violated), at latitude 8 they raise ValueError, and so does (-180, 8) for the centre (180, 8) (C173_value_error_violated). Proved: positions at least 2**-20 radians from the centre and from its antipode are projected (C173_returns_partial), in the near hemisphere with an error of at most r * 2**-19 (C173_close_partial). Assumed: a correctly rounded library.
* C174 (Orientation of rings on floats): Violated for rings that enclose next to nothing: the area of the counter-clockwise triangle (0.5, 0.3), (0.6, 0.2), (0, 0.8) is negative (C174_orientation_violated), and as a hole it becomes a polygon of its own (C174_interface_violated). Proved: the bound of the error (C174_close), the sign and the grouping for rings that enclose more than the bound (C174_orientation_partial, C174_interface_partial), exact areas on grids (C174_exact). Assumed: sum adds from left to right (Python before 3.12), no overflow.
* C175 (Inequality of float columns): Violated: gini_kakwani([0.1, 0, 0, 0]) is 1 + 2**-52 (C175_kakwani_violated) and gini_deaton([0.1, 0.1]) is -2**-51 (C175_deaton_violated). Proved: closeness of both, and that gini_kakwani is not negative and zero exactly for equal incomes. Overflow is not modelled.
* C179 (Destinations on floats): Violated at the poles: destination(0, 8, 0, math.radians(82), 1) raises ValueError, because the argument of asin is 1 + 2**-52 (C179_violated). Proved: the bounds for starts and destinations at least a degree from the poles (C179_close_partial), with R given. Assumed: a correctly rounded library (exists_rounds, exists_asin), no overflow.
* C183 (Stereographic and azimuthal equal-area projections on floats): Bound proved wherever 1 + cos(c) >= 2^-20. The claim fails near the antipode: from the centre (0, 0) the position (180 - 2^-22, 0), which is not the antipode, raises ZeroDivisionError in both projections (C183_antipode_violated); from the centre (0, 8) the position (180 - 2^-22, -8) makes AzimuthalEqualArea raise ValueError (C183_value_error_violated), and Stereographic put it on the wrong side of the centre (C183_mirrored_violated). Library functions are taken to be correctly rounded.
* C186 (The conic equal-area projection is accurate on floats away from the tip of its cone, and fails at poles): The last sentence fails: with parallels 6 and 90 degrees geo2rect and scale raise ValueError at the pole, because the number under the root, zero on real numbers, is rounded to -2^-52 (C186_pole_violated); with both parallels at 6 degrees the pole has a point for which rect2geo raises ValueError, the argument of asin being 1 + 2^-51 (C186_back_violated). C186_close_partial, C186_scale_partial and C186_back_partial bound the errors where the number under the root is at least h squared; C186_anywhere covers all positions for parallels up to 75 degrees.
* C187 (The oblique Mercator projection is accurate on floats away from its edge, and fails near it): The last sentence fails: with the origin at (0, 8) the position (-90 + 2^-22, 8) makes a = 1 + 2^-52, so atanh raises ValueError although the exact projection has a point (C187_edge_violated). C187_close_partial and C187_back_partial bound the errors elsewhere.
* C188 (The scale factors of the transverse and oblique Mercator projections are accurate on floats away from the edge, and fail near it): The last sentence fails: at the position of C187_edge_violated the root of a negative number raises ValueError (C188_oblique_edge_violated), and TransMercator.scale raises ZeroDivisionError at (90 - 2^-22, 0) with central meridian 0 (C188_transverse_edge_violated). The bounds of the first sentence are C188_transverse_partial and C188_oblique_partial.
* C197 (Numbers left blank in an attribute file): The first sentence fails for blanks (C197_blank_violated); C197_zero_partial is the rest.
* C200 (Collinearity of points with float coordinates): Violated: yes for a triangle with sides of 2^-600 (C200_tiny_violated), no for three points of the line y = 3 x with coordinates near 2^52 (C200_line_violated). Proved: symmetry (C200_symmetric), the right answer on grids (C200_grid_partial), never no for points of a line with exact differences (C200_line_partial), and yes only for triangles of next to no area (C200_flat_partial).
* C201 (Simplifying polylines with float coordinates): Violated for 0.49999999999999994 steps, which are put on 1 instead of 0 (C201_simplify_violated). Proved: agreement with exact arithmetic if no coordinate x is within (|x/m| + 1) * 2^-53 steps of the middle between two grid lines (C201_exact_partial, C201_simplify_partial), and the second sentence in full (C201_points, C201_monotone, C201_grid). How far a node can be from its point is C167. Overflow to infinity is not modelled.
* C205 (The page of a drawing on floats): Violated without an error term: a drawing of ten units on a page of size 1 ends beyond 1 (C205_fit_violated). C205_close bounds the distance from the exact place, C205_fit_partial the distance beyond the margins; C205_zero says when saving raises. The interpreter is taken to be exact; real ones round too.

## 7. Testing the theorems

`seeded/LOG.jsonl` records edits of the model as a realistic bug would make them, made in a scratch copy outside
`/verif`: the definition and the edit, the claim it breaks, the lemmas whose proofs fail (each is then assumed so that
later ones are checked too) and the property theorems that rest on them, and theorems that had to be tightened because
they still went through.
