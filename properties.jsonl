{"id": "C01", "title": "BBox(points) is the least box around the points", "statement": "BBox(iterable) on any non-empty sequence of points returns a box whose closed extent contains every point, and each of its four sides is touched by some point of the sequence, so no smaller box works; on an empty sequence it raises StopIteration.", "quantifier": "every non-empty finite sequence of points over any linearly ordered coordinate type", "why_tests_cant": "The scan updates each bound with an if/elif chain; correctness depends on an invariant over every prefix, for all lengths and orders of points.", "anchors": ["coral/bbox.py: BBox.__init__"]}
{"id": "C02", "title": "Union covers both boxes and nothing smaller does", "statement": "a | b contains (closed extent) everything a and b contain and is contained in every box that contains both. Users rely on it to accumulate the extent of a drawing.", "quantifier": "all pairs of well-formed boxes, including zero-width and zero-height ones", "why_tests_cant": "Must hold for all real coordinates, including the degenerate boxes produced by horizontal and vertical lines.", "anchors": ["coral/bbox.py: BBox.__or__, BBox.__bool__"]}
{"id": "C03", "title": "Intersection contains exactly the common points", "statement": "For every point p, p in (a & b) if and only if p in a and p in b, with the half-open membership that `in` uses; disjoint boxes give a box containing no point.", "quantifier": "all boxes (also empty, inverted and touching ones) and all points", "why_tests_cant": "Infinite domain of boxes and points; the corner cases are equalities on coordinates.", "anchors": ["coral/bbox.py: BBox.__and__, BBox.has_point"]}
{"id": "C04", "title": "collide() is symmetric and means sharing a point", "statement": "a.collide(b) == b.collide(a) always; and for boxes of positive width and height a.collide(b) is true exactly when some point is in both, which is also exactly when a & b is non-empty.", "quantifier": "all pairs of boxes", "why_tests_cant": "Needs an existential witness point for every colliding pair and its absence for every non-colliding pair.", "anchors": ["coral/bbox.py: BBox.collide"]}
{"id": "C05", "title": "Box-in-box implies point containment", "statement": "If b in a is true then every point of b is in a; the test is exactly that both corners of b are points of a (so a box never contains itself), and it is transitive.", "quantifier": "all pairs/triples of boxes and all points", "why_tests_cant": "Quantifies over all points of infinite sets.", "anchors": ["coral/bbox.py: BBox.has_bbox, BBox.__contains__"]}
{"id": "C06", "title": "Translate and scale obey their geometry", "statement": "(b + p) - p == b; translation keeps width, height and area and moves membership with the box; scaling keeps the centre, multiplies width and height by the factor and area by its square, scale(1) is the identity, scales compose multiplicatively and (b * f) / f == b for f != 0.", "quantifier": "all boxes, all offsets, all factors (exact arithmetic)", "why_tests_cant": "Algebraic laws over an infinite field.", "anchors": ["coral/bbox.py: BBox.translate, BBox.scale, BBox.center, BBox.__add__, BBox.__sub__, BBox.__mul__, BBox.__truediv__"]}
{"id": "C07", "title": "Box comparison operators form a consistent order", "statement": "The class is decorated with total_ordering: for any two boxes exactly one of a < b, a == b, a > b should hold, a > b should mean b < a, and a >= b should mean b <= a.", "quantifier": "all pairs of boxes", "why_tests_cant": "A consistency law between several operators for all pairs.", "anchors": ["coral/bbox.py: BBox.__lt__, BBox.__eq__, functools.total_ordering"]}
{"id": "C08", "title": "Box equality means equal corners", "statement": "a == b should be true exactly when the four coordinates are equal.", "quantifier": "all pairs of boxes with integer coordinates", "why_tests_cant": "Equality compares hashes; the question is whether any two different boxes collide, which no sample of boxes settles.", "anchors": ["coral/bbox.py: BBox.__eq__, BBox.__hash__"]}
{"id": "C09", "title": "Buffer behaves as a bounded double-ended queue", "statement": "For every capacity that is a power of two and every sequence of push/pop/peek/shift/isempty/isfull calls, Buffer answers exactly like a plain list of at most n elements: push appends, pop/peek act on the newest, shift on the oldest, pushing when full and popping/shifting/peeking when empty raise AssertionError and change nothing.", "quantifier": "all power-of-two capacities and all operation sequences", "why_tests_cant": "Wrap-around of masked indices only shows for particular histories; all histories must agree with the queue.", "anchors": ["coral/coord.py: Buffer"]}
{"id": "C10", "title": "nearest() rounds to the closest integer, halves away from zero", "statement": "|nearest(x) - x| <= 1/2, ties go away from zero, nearest(-x) = -nearest(x), nearest is monotone and fixes integers.", "quantifier": "every number x (exact arithmetic)", "why_tests_cant": "Infinite domain with boundary cases at every half-integer.", "anchors": ["coral/coord.py: nearest", "coral/raster.py: nearest"]}
{"id": "C11", "title": "Open simplification returns a subsequence with the same end points", "statement": "simplify(points, scale) on at least two points yields a subsequence, in order, of the grid-rounded input, starting with the first rounded point and ending with the last one, whatever the buffer size k (a power of two).", "quantifier": "all point sequences of length at least 2, all scales, all buffer capacities", "why_tests_cant": "Depends on an invariant of the streaming buffer over the entire history of points.", "anchors": ["coral/coord.py: simplify, sqr_fit, open_no_slit"]}
{"id": "C12", "title": "Open simplification keeps every corner and drops only collinear points", "statement": "The simplified open polyline keeps every vertex at which the rounded path turns, and drops only vertices collinear with their neighbours.", "quantifier": "all input polylines", "why_tests_cant": "Universal over all paths; the buffer history decides which vertices vanish.", "anchors": ["coral/coord.py: open_no_slit, collinear"]}
{"id": "C13", "title": "Closed simplification preserves the ring", "statement": "simplify(points, scale, closed=True) outputs only rounded input points, begins with the first point and ends with the last one, and visits the kept corners in ring order.", "quantifier": "all closed rings and buffer capacities", "why_tests_cant": "Two cooperating buffers reorder points only once a ring has more corners than the buffer holds.", "anchors": ["coral/coord.py: closed_no_slit"]}
{"id": "C14", "title": "collinear() decides exactly whether three points lie on one line", "statement": "collinear(a, b, c) is true iff some line contains the three points; the answer does not depend on the order of the points and is invariant under translation.", "quantifier": "all triples of points", "why_tests_cant": "Existential over lines for all point triples.", "anchors": ["coral/coord.py: collinear"]}
{"id": "C15", "title": "corangle normalises angles", "statement": "corangle(a) terminates and returns an angle in [-pi, pi] that differs from a by an integer multiple of 2*pi, and returns a unchanged if it is already in that range.", "quantifier": "every real angle", "why_tests_cant": "Termination and range for every real number.", "anchors": ["coral/proj.py: corangle"]}
{"id": "C16", "title": "haversine is the great-circle distance", "statement": "With a common radius R >= 0: the distance is symmetric, non-negative, at most pi*R, equals R times the angle between the two position vectors, is zero exactly for coinciding positions (R > 0), and satisfies the triangle inequality.", "quantifier": "all pairs/triples of longitude-latitude points", "why_tests_cant": "Metric laws over a continuum of points.", "anchors": ["coral/coord.py: haversine"]}
{"id": "C17", "title": "destination inverts (bearing, haversine)", "statement": "destination(lon1, lat1, bearing(p1, p2), haversine(p1, p2, R), R) = p2 as promised by the docstring, with longitude normalised to [-180, 180].", "quantifier": "all pairs of non-polar points and all R > 0", "why_tests_cant": "An identity over a four-dimensional continuum including quadrant boundaries.", "anchors": ["coral/coord.py: destination, bearing, haversine"]}
{"id": "C18", "title": "midpoint is half way", "statement": "The midpoint of two non-antipodal points is at the same great-circle distance from both, namely half their distance, and swapping the arguments gives the same position.", "quantifier": "all pairs of non-antipodal points", "why_tests_cant": "Identity over a continuum.", "anchors": ["coral/coord.py: midpoint"]}
{"id": "C19", "title": "bearing2cardinal picks the nearest of the 16 winds", "statement": "For every bearing, the name returned is that of a wind whose bearing differs by at most 11.25 degrees modulo 360, the answer is periodic in 360 degrees, and no bearing raises; bearing2hours returns the only h in (0, 12] for which 30*h and the bearing, counted the other way round, are the same angle.", "quantifier": "every bearing, positive or negative, of any size", "why_tests_cant": "Sector boundaries and wrap-around over an unbounded domain.", "anchors": ["coral/coord.py: bearing2cardinal, bearing2hours"]}
{"id": "C20", "title": "Mercator projection round-trips", "statement": "rect2geo(geo2rect(lon, lat)) gives back lat and lon modulo 360 for every latitude strictly between the poles, and geo2rect(rect2geo(x, y)) gives back (x, y) for every point with |x| < pi*r; the south pole raises ProjectionError.", "quantifier": "all origins, radii, longitudes and latitudes in (-90, 90)", "why_tests_cant": "Analytic identity over a continuum.", "anchors": ["coral/proj.py: Mercator, Proj"]}
{"id": "C21", "title": "Mercator scale() is the true local scale", "statement": "The derivative of the projected y with respect to latitude, divided by r, equals scale(lon, lat), as does the east-west stretch, i.e. the projection is conformal.", "quantifier": "all latitudes in (-90, 90)", "why_tests_cant": "A statement about limits at every point.", "anchors": ["coral/proj.py: Mercator.scale, Mercator.geo2rect"]}
{"id": "C22", "title": "Transverse Mercator round-trips", "statement": "rect2geo(geo2rect(lon, lat)) represents the same position on the sphere for every position geo2rect accepts.", "quantifier": "all origins, radii and positions strictly between the poles", "why_tests_cant": "Analytic identity over a continuum with quadrant cases.", "anchors": ["coral/proj.py: TransMercator"]}
{"id": "C23", "title": "Albers conic round-trips", "statement": "rect2geo(geo2rect(lon, lat)) = (lon, lat) for either hemisphere's parallels (n > 0 or n < 0) whenever |n*lon| < 180 degrees.", "quantifier": "all parallels with n != 0, radii, positions in the domain", "why_tests_cant": "Sign handling for n < 0 across the continuum.", "anchors": ["coral/proj.py: ConicEqualArea, CProj"]}
{"id": "C24", "title": "Azimuthal equidistant preserves distance from the centre", "statement": "The planar distance of geo2rect(p) from (0,0) equals haversine(centre, p, r) for every non-antipodal p.", "quantifier": "all centres, radii and points", "why_tests_cant": "Identity over a continuum.", "anchors": ["coral/proj.py: AzimuthalEquidistant.geo2rect"]}
{"id": "C25", "title": "Azimuthal projections round-trip", "statement": "rect2geo(geo2rect(p)) = p for the Stereographic, AzimuthalEqualArea and AzimuthalEquidistant projections wherever geo2rect is defined.", "quantifier": "all centres, radii and points", "why_tests_cant": "Quadrant errors of atan appear only on part of the sphere; the claim is about all of it.", "anchors": ["coral/proj.py: Stereographic, AzimuthalEqualArea, AzimuthalEquidistant"]}
{"id": "C26", "title": "Ellipsoidal Mercator: a returned latitude is exact", "statement": "Whenever the fixed-point loop of EMercator.rect2geo terminates, projecting the returned position again gives the original (x, y).", "quantifier": "all ellipsoids with 0 <= e < 1, all (x, y) with |x| < pi*a for which the loop ends", "why_tests_cant": "The loop's exit condition must imply the inverse relation for every input.", "anchors": ["coral/proj.py: EMercator"]}
{"id": "C27", "title": "Eckert IV inverse is exact", "statement": "rect2geo applied to the exact Eckert IV image of a position returns that position.", "quantifier": "all positions, origins and radii", "why_tests_cant": "Analytic identity over a continuum.", "anchors": ["coral/proj.py: EckertIV"]}
{"id": "C28", "title": "Oblique Mercator round-trips on its near side", "statement": "rect2geo(geo2rect(lon, lat)) = (lon, lat) for every position.", "quantifier": "all origins, radii and positions", "why_tests_cant": "Branch of atan decides the hemisphere.", "anchors": ["coral/proj.py: ObliqMercator"]}
{"id": "C29", "title": "Name cache round-trips and selects exactly the colliding entities", "statement": "cachenames(key, pff) writes exactly the names, in order, of entities one of whose polygons' projected bounding box collides with the frame, returns their number, and loadnames(key) returns the same list.", "quantifier": "all entity lists whose names contain no line break and no trailing white space", "why_tests_cant": "Universal over file contents and geometry.", "anchors": ["coral/frame.py: Frame.cachenames, Frame.loadnames"]}
{"id": "C30", "title": "A saved frame can be loaded", "statement": "load(path) after Frame.save(path) rebuilds a frame with the same projection type, centre, model parameters and bounding box.", "quantifier": "all frames over every projection class of the library", "why_tests_cant": "Must hold for every projection class and all parameters.", "anchors": ["coral/frame.py: Frame.save, load"]}
{"id": "C31", "title": "Frame.point puts a point into its grid cell", "statement": "Frame.point(scale, p) returns the integer cell (i, j) with i*scale <= x < (i+1)*scale and likewise for y, for the projected point (x, y) and any positive scale.", "quantifier": "all projections, points and positive scales", "why_tests_cant": "Cell boundaries over a continuum.", "anchors": ["coral/frame.py: Frame.point"]}
{"id": "C32", "title": "FVar quantisation error is bounded", "statement": "Whenever FVar.encode(v) succeeds, decode returns a value within (maxv-minv)/(2*span) of v and inside [minv, maxv]; the encoding is monotone; encode(decode(bytes)) returns the same bytes for every byte string of the right size.", "quantifier": "all ranges, sizes 1/2/4/8, nullable or not, all values in range", "why_tests_cant": "2^64 codes and a continuum of values.", "anchors": ["coral/grid.py: FVar"]}
{"id": "C33", "title": "FVar can encode every value of its declared domain", "statement": "encode succeeds for every v in [minv, maxv], and for None when nullable, and decode(encode(None)) is None.", "quantifier": "all FVar declarations and all values of their domain", "why_tests_cant": "The failing values depend on size and range.", "anchors": ["coral/grid.py: FVar.index, FVar.encode"]}
{"id": "C34", "title": "IVar maps integers to indices and back", "statement": "value(index(v)) == v for every integer in [minv, maxv] and for None if nullable; the index of an in-range integer fits the declared byte size, which is the smallest sufficient one of 1, 2, 4, 8.", "quantifier": "all IVar declarations and values", "why_tests_cant": "Boundaries at 2^8, 2^16, 2^32, 2^64.", "anchors": ["coral/grid.py: IVar.__init__, IVar.index, IVar.value"]}
{"id": "C35", "title": "IVar.encode and decode are inverse", "statement": "decode(encode(v)) == v for every integer in range and for None if nullable.", "quantifier": "all IVar declarations and values", "why_tests_cant": "Universal over declarations.", "anchors": ["coral/grid.py: IVar.encode, IVar.decode"]}
{"id": "C36", "title": "SVar round-trips text", "statement": "decode(encode(s)) == s for every string without trailing NULs whose UTF-8 form fits, the encoding always has exactly the declared size, None round-trips when nullable and is never confused with a string (size > 0).", "quantifier": "all sizes and all Unicode strings", "why_tests_cant": "All Unicode strings of all lengths.", "anchors": ["coral/grid.py: SVar"]}
{"id": "C37", "title": "A grid row round-trips field by field", "statement": "GRow.decode(GRow.encode(*values)) returns, for each column, what that column alone would return, and the encoding has exactly row.size bytes; a missing value raises AssertionError.", "quantifier": "all rows of columns and all value tuples", "why_tests_cant": "Offsets accumulate over arbitrarily many columns.", "anchors": ["coral/grid.py: GRow"]}
{"id": "C38", "title": "Variable-length integers are self-delimiting and round-trip", "statement": "readvlv applied to writevlv(v) followed by any bytes returns v and leaves exactly those bytes; every byte but the last has its top bit set; distinct numbers have distinct encodings; the encoding has the minimal number of digits.", "quantifier": "all natural numbers and all following bytes", "why_tests_cant": "Unbounded integers.", "anchors": ["coral/pf.py: base128, writevlv, readvlv", "coral/rg.py: base128, writevlv, readvlv"]}
{"id": "C39", "title": "Signed variable-length integers round-trip", "statement": "readsvlv(writesvlv(v)) == v for every integer, leaving the following bytes untouched.", "quantifier": "all integers", "why_tests_cant": "Unbounded integers.", "anchors": ["coral/pf.py: writesvlv, readsvlv", "coral/rg.py: writesvlv, readsvlv"]}
{"id": "C40", "title": "A P file's index reads back what was written", "statement": "After any sequence of successful Writer.write calls and close(), Reader(path) has the same number of entities, the same names in order, the same ring lengths and the quantised bounding boxes.", "quantifier": "all write histories with NUL-free ASCII names", "why_tests_cant": "Variable-length binary layout over arbitrary histories.", "anchors": ["coral/pf.py: Writer.close, Reader._header"]}
{"id": "C41", "title": "P file coordinates come back within half a quantum", "statement": "Reader.read(i) returns the rings given to the i-th write call, with the longitudes wrapped to [-180,180] and a repeated closing point removed, each coordinate off by at most half of 1/umax of the entity's stored box, for every ring of non-zero extent; reads are independent of the order in which entities are read.", "quantifier": "all write histories over rings of positive extent, all sizes 1/2/4/8, all read orders", "why_tests_cant": "Offsets and quantisation for arbitrary data.", "anchors": ["coral/pf.py: Writer.write, Reader.read"]}
{"id": "C42", "title": "get(name) returns the first entity of that name", "statement": "Reader.get(name) equals read(i) for the smallest i whose name is name and raises ValueError if there is none.", "quantifier": "all files and names", "why_tests_cant": "Universal over indexes with duplicates.", "anchors": ["coral/pf.py: Reader.get"]}
{"id": "C43", "title": "Writer.write terminates on every coordinate", "statement": "write() wraps out-of-range longitudes and latitudes and returns for every numeric coordinate.", "quantifier": "all coordinates", "why_tests_cant": "Termination for all inputs cannot be tested.", "anchors": ["coral/pf.py: Writer.write"]}
{"id": "C44", "title": "Reading a damaged P file fails cleanly", "statement": "Opening a truncated P file raises an exception rather than hanging.", "quantifier": "every proper prefix of every valid file", "why_tests_cant": "Every crash point while the file is written.", "anchors": ["coral/pf.py: Reader._header, readascii, readvlv"]}
{"id": "C45", "title": "BWCanvas pixels are independent", "statement": "After c[x, y] = v the pixel (x, y) reads as int(bool(v)) and every other pixel of the canvas is unchanged, for any sequence of writes.", "quantifier": "all canvas sizes, all in-range coordinates, all write histories", "why_tests_cant": "Bit masking inside shared bytes for all sizes and histories.", "anchors": ["coral/raster.py: BWCanvas.__getitem__, BWCanvas.__setitem__"]}
{"id": "C46", "title": "Gray and colour pixels are independent", "statement": "After c[x, y] = v (opaque) the pixel reads v, all other pixels are unchanged and the data length never changes, for any sequence of in-range writes.", "quantifier": "all canvas sizes, in-range coordinates and write histories", "why_tests_cant": "Index arithmetic for all sizes and histories.", "anchors": ["coral/raster.py: GrayCanvas, ColorCanvas"]}
{"id": "C47", "title": "Alpha blending stays in range", "statement": "Blending with alpha in [0,1] yields an integer between the two 8-bit values (so it fits a byte), alpha 0 keeps the background, alpha 1 gives the foreground, and blending is monotone in alpha towards the foreground.", "quantifier": "all 8-bit values and all alpha in [0, 1]", "why_tests_cant": "A continuum of alphas.", "anchors": ["coral/raster.py: GrayCanvas.blend, ColorCanvas.blend"]}
{"id": "C48", "title": "line() draws a connected line between its end points", "statement": "For all integer end points line() terminates, its first pixel is start and last pixel is end, consecutive pixels are 8-neighbours moving towards the end, it visits exactly max(|dx|,|dy|)+1 distinct pixels and every pixel is within half a pixel of the ideal segment.", "quantifier": "all integer end points", "why_tests_cant": "Termination and an error-accumulator invariant for all slopes and lengths.", "anchors": ["coral/raster.py: BaseCanvas.line"]}
{"id": "C49", "title": "strokepolygon draws the closed outline", "statement": "With aa=False, the pixels set by strokepolygon are exactly those of the lines joining each vertex to the next and the last vertex to the first.", "quantifier": "all vertex lists and canvases", "why_tests_cant": "Universal over polygons.", "anchors": ["coral/raster.py: BaseCanvas.strokepolygon"]}
{"id": "C50", "title": "fillpolygons fills the interior", "statement": "Filling the marks of a scanned polygon sets exactly the pixels inside the polygon, whatever its orientation.", "quantifier": "all polygons and canvases", "why_tests_cant": "Mark order and orientation cases for all polygons.", "anchors": ["coral/raster.py: BaseCanvas.scanpolygon, BaseCanvas.fillpolygons"]}
{"id": "C51", "title": "A new canvas is uniformly the background", "statement": "Every in-range pixel of a fresh canvas reads as the bgcolor passed to the constructor.", "quantifier": "all canvas sizes and background colours", "why_tests_cant": "All sizes and colours.", "anchors": ["coral/raster.py: BWCanvas.__init__, GrayCanvas.__init__, ColorCanvas.__init__"]}
{"id": "C52", "title": "save() writes a well-formed PNM image", "statement": "The saved bytes are the magic number, the decimal width and height, the maximum value where applicable and exactly the number of data bytes the PBM/PGM/PPM format requires for that width and height, with each pixel at its place.", "quantifier": "all canvases after any history of in-range writes", "why_tests_cant": "All sizes and histories.", "anchors": ["coral/raster.py: BWCanvas.save, GrayCanvas.save, ColorCanvas.save"]}
{"id": "C53", "title": "Gradient hits its stops and interpolates between them", "statement": "For x in [0,1]: get(x) is the colour of the first stop at x if there is one; otherwise each channel is the linear interpolation of the two neighbouring stops and lies between them; no x in [0,1] raises.", "quantifier": "all non-empty stop lists in [0,1] in any order, all x in [0,1]", "why_tests_cant": "Continuum of x and arbitrary unsorted stop lists.", "anchors": ["coral/gradient.py: Gradient"]}
{"id": "C54", "title": "get_hex yields three hex digits", "statement": "For colours with channels in [0,1], get_hex(x) is '#' followed by one lower-case hex digit per channel, the digit being floor(15*channel).", "quantifier": "all gradients with channels in [0,1] and x in [0,1]", "why_tests_cant": "Continuum of inputs.", "anchors": ["coral/gradient.py: Gradient.get_hex"]}
{"id": "C55", "title": "damlev is the minimal edit cost", "statement": "damlev(s, t) equals the least number of insertions, deletions, substitutions and transpositions of adjacent letters (no substring edited twice) turning s into t.", "quantifier": "all pairs of strings", "why_tests_cant": "Optimality of a dynamic program over all strings.", "anchors": ["coral/names.py: damlev"]}
{"id": "C56", "title": "damlev is symmetric, separates strings and is bounded", "statement": "damlev(s,t)=damlev(t,s); it is 0 iff s=t; |len s - len t| <= damlev(s,t) <= max(len s, len t).", "quantifier": "all pairs of strings", "why_tests_cant": "Universal over strings.", "anchors": ["coral/names.py: damlev"]}
{"id": "C57", "title": "damlev is a distance", "statement": "damlev satisfies the triangle inequality.", "quantifier": "all triples of strings", "why_tests_cant": "Universal over triples.", "anchors": ["coral/names.py: damlev"]}
{"id": "C58", "title": "Jaro similarity is normalised", "statement": "jaro(s,t) and jaro_winkler(s,t) are between 0 and 1 for all non-empty strings and are 1 for equal non-empty strings ('results normalized' in the module's notes).", "quantifier": "all pairs of non-empty strings", "why_tests_cant": "Universal over strings.", "anchors": ["coral/names.py: jaro, jaro_winkler"]}
{"id": "C59", "title": "mapping pairs each key with its best value, best matches first", "statement": "mapping(keys, values) returns one match per key, with a value of least strerr (first such), score = 1 - strerr in [-1, 1], sorted by non-increasing score with ties in key order.", "quantifier": "all key lists and non-empty value lists of non-empty strings", "why_tests_cant": "Universal over lists.", "anchors": ["coral/names.py: mapping, strerr"]}
{"id": "C60", "title": "ascii() removes accents idempotently", "statement": "ascii(s) has the length of s, contains none of the accented letters it maps, leaves other characters alone and ascii(ascii(s)) == ascii(s).", "quantifier": "all strings", "why_tests_cant": "Universal over strings.", "anchors": ["coral/names.py: ascii"]}
{"id": "C61", "title": "abbreviations gives unique abbreviations", "statement": "abbreviations(names, n) returns a dictionary with a distinct abbreviation of at most n letters for every name.", "quantifier": "all lists of names", "why_tests_cant": "Universal over lists.", "anchors": ["coral/names.py: abbreviations"]}
{"id": "C62", "title": "Memoised statistics are transparent", "statement": "For every history of calls (including cache_clear), each memoised function returns what the un-memoised function returns, the cache never exceeds its maximum size, and hits + misses equals the number of calls since the last clear.", "quantifier": "all call histories", "why_tests_cant": "History dependence: eviction order and repeated keys.", "anchors": ["coral/stats.py: memoize, cache_info, cache_clear"]}
{"id": "C63", "title": "Variance and covariance laws", "statement": "var >= 0, var = mean of squares minus squared mean, var is 0 iff all values are equal, is unchanged by shifts and scales quadratically; covar is symmetric for equal lengths, covar(x,x) = var(x).", "quantifier": "all non-empty sequences (exact arithmetic)", "why_tests_cant": "Algebraic laws for all lengths and values.", "anchors": ["coral/stats.py: avg, var, covar"]}
{"id": "C64", "title": "Correlation is in [-1, 1]", "statement": "corr(x, y) is between -1 and 1, corr(x,x) = 1, and corr is symmetric, for sequences of equal length with non-zero deviation.", "quantifier": "all pairs of sequences", "why_tests_cant": "Cauchy-Schwarz for all lengths.", "anchors": ["coral/stats.py: corr, std_dev"]}
{"id": "C65", "title": "Both Gini formulas agree", "statement": "gini_kakwani(seq) == gini_deaton(seq) for every sequence of at least two values with non-zero mean.", "quantifier": "all sequences", "why_tests_cant": "An identity between a pairwise sum and a sorted weighted sum for all lengths.", "anchors": ["coral/stats.py: gini_kakwani, gini_deaton"]}
{"id": "C66", "title": "Gini is a normalised inequality index", "statement": "For non-negative sequences with positive mean the Gini value is in [0,1], is 0 iff all values are equal, does not depend on order and is invariant under positive scaling.", "quantifier": "all sequences", "why_tests_cant": "All lengths and orders.", "anchors": ["coral/stats.py: gini_kakwani, gini_deaton"]}
{"id": "C67", "title": "cache_clear empties every statistics cache", "statement": "After cache_clear() no memoised function of the module answers from its cache.", "quantifier": "all call histories", "why_tests_cant": "History property over all caches of the module.", "anchors": ["coral/stats.py: cache_clear, memos"]}
{"id": "C68", "title": "writefile/readfile round-trip", "statement": "readfile(writefile(table)) returns the same field names and rows for tables whose cells contain no separator, comment mark or line break and no surrounding white space, provided no row is blank (and, when the separator is itself white space such as a tab, no row begins or ends with an empty cell).", "quantifier": "all tables of such cells", "why_tests_cant": "Universal over tables and cell texts.", "anchors": ["coral/table.py: readfile, writefile"]}
{"id": "C69", "title": "readfile(keys=...) selects the named columns", "statement": "readfile(path, keys) returns rows in which attribute k holds the cell of the file's column k for every k in keys.", "quantifier": "all files and key selections in any order", "why_tests_cant": "Column order interplay for all permutations.", "anchors": ["coral/table.py: readfile"]}
{"id": "C70", "title": "join is a left join on the pivots", "statement": "join(t1, t2) has one row per row of t1, in order; each contains the values of the first t2 row agreeing on the pivots (t2 values win on shared keys) or empty strings for t2-only keys when there is none; this holds for whatever order the key set is enumerated in.", "quantifier": "all tables, pivots and key orders", "why_tests_cant": "Set iteration order and arbitrary tables.", "anchors": ["coral/table.py: join"]}
{"id": "C71", "title": "getone/getall/indexby select rows faithfully", "statement": "getall yields exactly the rows whose key equals the query, in order; getone the first of them or None; indexby maps each key value to the last row carrying it, without the key column.", "quantifier": "all tables, keys and queries", "why_tests_cant": "Universal over tables.", "anchors": ["coral/table.py: getone, getall, indexby"]}
{"id": "C72", "title": "addkey and delkeys change only the named columns", "statement": "addkey appends the computed column and keeps all others; delkeys removes exactly the named columns; deleting the added key restores the table.", "quantifier": "all tables and functions", "why_tests_cant": "Universal over tables.", "anchors": ["coral/table.py: addkey, delkeys"]}
{"id": "C73", "title": "Every shape is painted with the requested ink", "statement": "Interpreting the generated PostScript, each fill and stroke emitted for addpolygon/addpolyline/addcircle uses the ink passed to that call, for any drawing history.", "quantifier": "all histories of drawing calls", "why_tests_cant": "The ink cache depends on the entire history.", "anchors": ["coral/vector.py: Canvas.setink, Canvas.setgray, Canvas.setcolor, Canvas.addpolygon, Canvas.addpolyline, Canvas.addcircle"]}
{"id": "C74", "title": "Line width and dash caching is faithful", "statement": "For any history of calls, at each stroke the PostScript line width and dash are those of the latest setwidth/setdash call (or the defaults).", "quantifier": "all histories", "why_tests_cant": "The cache depends on the history.", "anchors": ["coral/vector.py: Canvas.setwidth, Canvas.setdash"]}
{"id": "C75", "title": "The canvas bounding box covers everything drawn", "statement": "After any history, Canvas.bbox contains every vertex of every polygon, polyline, circle box and image drawn since the last reset.", "quantifier": "all drawing histories", "why_tests_cant": "Accumulation over histories including degenerate shapes.", "anchors": ["coral/vector.py: Canvas.addpolygon, Canvas.addpolyline, Canvas.addcircle, Canvas.addimage", "coral/bbox.py: BBox.__or__"]}
{"id": "C76", "title": "The emitted path is the polygon", "statement": "Interpreting the lines emitted by addpolygon/addpolyline builds exactly one subpath through the given points in order (closed for polygons), and an empty point list emits nothing.", "quantifier": "all point lists", "why_tests_cant": "Universal over point lists.", "anchors": ["coral/vector.py: Canvas.addpolygon, Canvas.addpolyline"]}
{"id": "C77", "title": "save(size, margin) fits the drawing on the page", "statement": "With size given, the emitted transformation maps the centre of the bounding box to the page centre and every point of the box into [margin/2, size - margin/2] squared.", "quantifier": "all boxes of non-zero extent, sizes and margins with size >= margin", "why_tests_cant": "Continuum of boxes.", "anchors": ["coral/vector.py: Canvas.save"]}
{"id": "C78", "title": "Text procedures are defined before use", "statement": "In the saved file each text procedure used by addtext, and the procedure sz it depends on, is defined exactly once before the drawing commands, with sz before the procedures calling it.", "quantifier": "all histories of addtext calls", "why_tests_cant": "All sets of anchors and set iteration orders.", "anchors": ["coral/vector.py: Canvas.addtext, Canvas.save, read_defs, DEPS", "coral/defs.ps"]}
{"id": "C79", "title": "addimage embeds the image data", "statement": "The hexadecimal lines emitted by addimage decode to the first height*width(*3) bytes of data, one line per image row.", "quantifier": "all byte sequences and widths", "why_tests_cant": "Universal over data.", "anchors": ["coral/vector.py: Canvas.addimage"]}
{"id": "C80", "title": "Canvas.copy is independent", "statement": "After c2 = c.copy(), any sequence of drawing calls on one canvas leaves the other's lines, state, bbox and dependencies unchanged.", "quantifier": "all histories after a copy", "why_tests_cant": "Aliasing over histories.", "anchors": ["coral/vector.py: Canvas.copy"]}
{"id": "C81", "title": "tqdm yields exactly the items of the iterable", "statement": "Iterating tqdm(it) yields the items of it in order, whatever the clock returns, also for iterables without a length ('acts exactly like the iterable').", "quantifier": "all iterables, clock readings, miniters and mininterval", "why_tests_cant": "All schedules of clock readings.", "anchors": ["coral/tqdm.py: tqdm"]}
{"id": "C82", "title": "The status line never shows stale text", "statement": "After any sequence of print_status calls the terminal line shows the last status followed only by blanks.", "quantifier": "all sequences of statuses", "why_tests_cant": "History of lengths.", "anchors": ["coral/tqdm.py: StatusPrinter"]}
{"id": "C83", "title": "Progress meters are well-formed", "statement": "format_interval(t) denotes exactly int(t) seconds with minute and second fields below 60; the bar of format_meter always has 10 cells with floor(10*n/total) filled.", "quantifier": "all durations, n <= total", "why_tests_cant": "Unbounded durations.", "anchors": ["coral/tqdm.py: format_interval, format_meter"]}
{"id": "C84", "title": "A saved .shp file reads back the same geometry", "statement": "For shape types POINT, POLYLINE, POLYGON and MULTIPOINT-capable records, reading the saved .shp with shapes() returns the same number of shapes with the same type, parts and x/y coordinates, in order.", "quantifier": "all lists of shapes created through point(), line() and poly()", "why_tests_cant": "Binary layout with variable-size records for arbitrary data.", "anchors": ["coral/shapefile.py: Writer.__shpRecords, Writer.__shapefileHeader, Reader.__shape, Reader.shapes"]}
{"id": "C85", "title": "Random access through the index equals sequential reading", "statement": "After save(), Reader.shape(i) returns the i-th element of shapes() for every 0 <= i < n, in any order of access.", "quantifier": "all shape lists and indices", "why_tests_cant": "Offsets for arbitrary record sizes.", "anchors": ["coral/shapefile.py: Writer.__shxRecords, Reader.__shapeIndex, Reader.shape"]}
{"id": "C86", "title": "Saving again after adding shapes keeps the index right", "statement": "For any history of adding shapes and calling save(), the last saved .shx holds the byte offset of each record of the last saved .shp.", "quantifier": "all histories of additions and saves", "why_tests_cant": "History dependence.", "anchors": ["coral/shapefile.py: Writer.__shpRecords, Writer.__shxRecords, Writer._offsets"]}
{"id": "C87", "title": "The file length field matches the file", "statement": "The .shp header's length field equals half the number of bytes written.", "quantifier": "all shape types and shape lists that can be saved", "why_tests_cant": "Size arithmetic over all shapes.", "anchors": ["coral/shapefile.py: Writer.__shpFileLength, Writer.__shpRecords"]}
{"id": "C88", "title": "dbf records round-trip", "statement": "Text and integer attribute values written with saveDbf come back from records(): text without surrounding blanks that fits the field, integers that fit, in order.", "quantifier": "all field lists and records", "why_tests_cant": "Fixed-width layout for arbitrary data.", "anchors": ["coral/shapefile.py: Writer.__dbfHeader, Writer.__dbfRecords, Reader.__dbfHeader, Reader.__record"]}
{"id": "C89", "title": "shapeRecords pairs each shape with its record", "statement": "shapeRecords()[i] pairs the i-th shape with the i-th attribute record.", "quantifier": "all files, including ones with deleted records", "why_tests_cant": "Misalignment depends on deletion patterns.", "anchors": ["coral/shapefile.py: Reader.shapeRecords, Reader.records"]}
{"id": "C90", "title": "Record indices behave like list indices", "statement": "For n records, shape/record accept exactly the indices -n..n-1 and a negative index i means n+i.", "quantifier": "all n and i", "why_tests_cant": "Boundary at -n for every n.", "anchors": ["coral/shapefile.py: Reader.__restrictIndex"]}
{"id": "C91", "title": "poly() closes rings and records part starts", "statement": "For polygon types each ring ends with its first point after poly(), rings already closed are unchanged, and parts holds the start index of each ring so that slicing points by parts gives the rings back. line() never raises, stores a shape of type POLYLINE and leaves open parts open.", "quantifier": "all ring lists", "why_tests_cant": "Universal over part lists.", "anchors": ["coral/shapefile.py: Writer.poly"]}
{"id": "C92", "title": "__geo_interface__ partitions the points", "statement": "For line and polygon shapes the coordinates of the GeoJSON-like interface, flattened, are exactly the shape's points in order, one ring/line per part; in a MultiPolygon every polygon but the first starts with a clockwise ring and its other rings are counter-clockwise.", "quantifier": "all shapes with increasing parts starting at 0", "why_tests_cant": "Universal over part lists.", "anchors": ["coral/shapefile.py: _Shape.__geo_interface__"]}
{"id": "C93", "title": "signed_area is the oriented area", "statement": "For a closed ring signed_area equals the shoelace area, changes sign when the ring is reversed, is translation invariant and does not depend on the starting vertex.", "quantifier": "all closed rings", "why_tests_cant": "Algebraic identity for all lengths.", "anchors": ["coral/shapefile.py: signed_area"]}
{"id": "C94", "title": "Editor.delete(i) deletes shape i", "statement": "delete(shape=i) removes exactly the i-th shape, for every valid i.", "quantifier": "all i and shape lists", "why_tests_cant": "Falsy-argument cases.", "anchors": ["coral/shapefile.py: Editor.delete"]}
{"id": "C95", "title": "Editor keeps shapes and records balanced", "statement": "With autoBalance, after each point() call there are as many records as shapes.", "quantifier": "all histories of point() calls", "why_tests_cant": "History property.", "anchors": ["coral/shapefile.py: Editor.point, Editor.balance"]}
{"id": "C96", "title": "Measures written are read back", "statement": "M values of POLYLINEM/POLYGONM shapes saved by Writer are returned by Reader.", "quantifier": "all M shapes", "why_tests_cant": "Depends on the header's measure range for all data.", "anchors": ["coral/shapefile.py: Reader.__shape, Writer.mbox"]}
{"id": "C97", "title": "A RangeGrid data set can be read back", "statement": "After Writer(path,row), any writes and close(), Reader(path) opens and read(id) returns each entity's segments, quantised per column.", "quantifier": "all rows, histories and ids", "why_tests_cant": "Layout and index for arbitrary data.", "anchors": ["coral/rg.py: Writer, Reader"]}
{"id": "C98", "title": "The RangeGrid index round-trips", "statement": "_readindex(_writeindex(index)) returns the same ids (as text) and segment lengths for ids without blanks and entities with at least one segment.", "quantifier": "all indexes", "why_tests_cant": "Text format for all numbers.", "anchors": ["coral/rg.py: _writeindex, _readindex"]}
{"id": "C99", "title": "Sequential and random RangeGrid reads agree", "statement": "read() without an id continues after the last entity read, in index order; read(id) returns the first entity with that id; KeyError if absent.", "quantifier": "all read histories", "why_tests_cant": "Cursor state over histories.", "anchors": ["coral/rg.py: Reader.read"]}
{"id": "C100", "title": "dbf field descriptors round-trip", "statement": "The fields given to Writer.field() are those in Reader.fields (after the deletion flag) once the attribute file has been saved: same names, types, sizes, decimals, in order.", "quantifier": "all field lists", "why_tests_cant": "Fixed-width names for arbitrary field lists.", "anchors": ["coral/shapefile.py: Writer.__dbfHeader, Reader.__dbfHeader"]}
{"id": "C101", "title": "A failed RangeGrid write leaves the data set intact", "statement": "If write() raises, entities written before and after it are still read back correctly: the failed call has no effect on the file.", "quantifier": "all histories with failing writes", "why_tests_cant": "Depends on which row fails in every history.", "anchors": ["coral/rg.py: Writer.write"]}
{"id": "C102", "title": "Eckert IV geo2rect always returns, with bounded error", "statement": "EckertIV.geo2rect terminates without an exception for every latitude in [-90, 90] (in exact arithmetic), and its result is the exact Eckert IV image of a position with the same longitude (mod 360) and a latitude whose sine differs by less than 1.2e-6.", "quantifier": "all origins, radii, longitudes and latitudes in [-90, 90]", "why_tests_cant": "Termination and accuracy of a Newton iteration for every start; tests see a handful of latitudes and no derivative blow-up at the poles.", "anchors": ["coral/proj.py: EckertIV.geo2rect, EckertIV.rect2geo"]}
{"id": "C103", "title": "Albers scale() is the true meridian scale and areas are kept", "statement": "ConicEqualArea.scale is the local stretch along meridians, its reciprocal the stretch along parallels, and the two directions stay perpendicular, so areas are kept; on a standard parallel the scale is 1.", "quantifier": "all non-opposite standard parallels, radii, longitudes and latitudes in (-90, 90)", "why_tests_cant": "A statement about derivatives at every position.", "anchors": ["coral/proj.py: ConicEqualArea.geo2rect, ConicEqualArea.scale"]}
{"id": "C104", "title": "planify keeps the projected outline", "statement": "Frame.planify(scale, points) yields only grid cells nearest to projected points, the first for the first point and the last for the last one; with closed=False they come in the order of the points. If a point cannot be projected, its exception ends the outline.", "quantifier": "all projections, non-zero scales and point lists (at least two points, three if closed)", "why_tests_cant": "Universal over projections and paths; the output goes through a ring buffer.", "anchors": ["coral/frame.py: Frame.planify", "coral/coord.py: simplify"]}
{"id": "C105", "title": "scale() of the transverse and oblique Mercator is the true local scale", "statement": "Wherever TransMercator.geo2rect or ObliqMercator.geo2rect accepts a position (off the poles and, for the transverse one, off the upper and lower border of the map), scale() is the factor by which the map stretches small lengths in every direction, and the map keeps angles and orientation.", "quantifier": "all origins, positive radii and accepted positions", "why_tests_cant": "A statement about derivatives at every position.", "anchors": ["coral/proj.py: TransMercator.scale, ObliqMercator.scale"]}
{"id": "C106", "title": "The stereographic projection keeps angles", "statement": "Everywhere but opposite the centre and at the poles, Stereographic.geo2rect stretches small lengths by 2 / (1 + cos c) in every direction, c being the great-circle distance from the centre, and does not mirror.", "quantifier": "all centres, positive radii and positions", "why_tests_cant": "A statement about derivatives at every position.", "anchors": ["coral/proj.py: Stereographic.geo2rect"]}
{"id": "C107", "title": "The projections said to be equal-area are", "statement": "AzimuthalEqualArea.geo2rect keeps the area of small regions at every position not opposite the centre; EckertIV.rect2geo returns, for every small piece of the plane inside the height of the map, a piece of the sphere with the same area.", "quantifier": "all centres, radii, positions and plane points", "why_tests_cant": "A statement about derivatives at every position.", "anchors": ["coral/proj.py: AzimuthalEqualArea.geo2rect, EckertIV.rect2geo"]}
{"id": "C108", "title": "The latitude iteration of the ellipsoidal Mercator converges", "statement": "For the image of any position under EMercator.geo2rect (ellipsoids with 2 e^2 <= 1), the latitude after n rounds of the loop of rect2geo is off by at most e^(2n+2) of the latitude; whenever rect2geo returns, it returns the original position (longitude mod 360).", "quantifier": "all ellipsoids with 2 e^2 <= 1, all positions off the poles, all numbers of rounds", "why_tests_cant": "Convergence of a fixed-point iteration for every ellipsoid and latitude.", "anchors": ["coral/proj.py: EMercator.rect2geo"]}
{"id": "C109", "title": "An anti-aliased line gives every column the weight it covers", "statement": "aaline assigns, in every column (row, for a steep line) that the line crosses, to the two pixels next to the line, with alphas that share the part of the column the line covers in proportion to the distance; between the ends this is 1; every alpha is between 0 and 1. The code gets the column of the right end wrong: it gets the uncovered part.", "quantifier": "all lines with end points of nonnegative real coordinates, of any length and slope", "why_tests_cant": "Real end points, any slope; the error is invisible unless an end is off the pixel centre.", "anchors": ["coral/raster.py: BaseCanvas.aaline"]}
{"id": "C110", "title": "An anti-aliased line does not depend on the order of its ends", "statement": "aaline(a, b, c) makes the same assignments in the same order as aaline(b, a, c); it raises (ZeroDivisionError, before any assignment) exactly if the two ends coincide.", "quantifier": "all pairs of points", "why_tests_cant": "Exchange of coordinates and of ends interact; ties of the slope test must be covered.", "anchors": ["coral/raster.py: BaseCanvas.aaline"]}
{"id": "C111", "title": "An anti-aliased line mixes each pixel once with its weight", "statement": "On a gray or colour canvas, aaline between two different pixels of the canvas raises nothing, and replaces each pixel of the canvas by its mix with the colour, with weight one less the distance from the line along the shorter axis (not below 0), halved in the columns of the ends. The code raises for lines along the last row.", "quantifier": "all canvases, colours and pairs of pixels, all pixels of the canvas", "why_tests_cant": "Final contents of all pixels for all lines.", "anchors": ["coral/raster.py: BaseCanvas.aaline", "coral/raster.py: GrayCanvas.__setitem__", "coral/raster.py: ColorCanvas.__setitem__"]}
{"id": "C112", "title": "strokepolygon of gray and colour canvases draws every side anti-aliased", "statement": "strokepolygon with the default mode of gray and colour canvases draws the sides of the closed polygon one after the other with aaline: each pixel is mixed with the colour once per side. The code raises for any colour given as a number, and for any polygon with a vertex repeated at once, among them those closed explicitly.", "quantifier": "all canvases, polygons and colours", "why_tests_cant": "All polygons; the failing inputs are ordinary ones.", "anchors": ["coral/raster.py: BaseCanvas.strokepolygon", "coral/raster.py: BaseCanvas.aaline"]}
{"id": "C113", "title": "sf2pf carries every shape of a shapefile into the P file", "statement": "After sf2pf(sfpath, pfpath, getname, size), a Reader of pfpath has one entity per shape record, in order, named getname(record), and reading entity i gives the parts of shape i (wrapped, without closing points), each coordinate within half a quantum of the entity's box. The conversion succeeds for every polygon shapefile with ASCII names, including those that have null shapes.", "quantifier": "all lists of shapes, all ways of cutting points into parts, all getname functions, all sizes", "why_tests_cant": "The cut of the points by consecutive offsets has to be right for every number and length of rings, and the accuracy holds per point; a test converts one file.", "anchors": ["coral/pf.py:140-149", "coral/pf.py:163-240"]}
{"id": "C114", "title": "Writer.close returns the storage error of every point", "statement": "The tuple that pf.Writer.close returns has one number for every point that is stored, in the order of the file, and it is the distance in metres between the point given and the point that the Reader gives back for it. Computing it never makes a write fail.", "quantifier": "all histories of write calls with real coordinates, all sizes", "why_tests_cant": "Ties what the writer computes to what another object, the reader, returns later, point for point; needs exact arithmetic, which tests with floats blur.", "anchors": ["coral/pf.py:200-240", "coral/coord.py:112-125"]}
{"id": "C115", "title": "radiusat is the geocentric radius at a geodetic latitude", "statement": "radiusat(lat, ellipsoid) is the distance from the centre of the ellipsoid to the point of its surface whose normal makes the angle lat with the equatorial plane; it is a at the equator, b at the poles, between them elsewhere, and the same north and south.", "quantifier": "all latitudes, all ellipsoids with positive axes", "why_tests_cant": "A statement about a curve for all real latitudes; tests can only compare a few values with tables.", "anchors": ["coral/coord.py:98-110"]}
{"id": "C116", "title": "geocentroid returns the centroid of the region on the sphere", "statement": "Whenever geocentroid(region, bb, epsilon) returns, the result is, to within epsilon in longitude and latitude, the fixed point of: draw the polygons with the equal-area azimuthal projection at a centre, take the plane centroid of all of them together (area-weighted, holes subtracting), and convert it back; without bb the search starts at the centre of the least box around the whole region; and it returns for every region with area.", "quantifier": "All regions (any number of polygons with any vertices), boxes, tolerances and executions of the loop.", "why_tests_cant": "The loop has no bound and the failing inputs are exactly the most natural ones (a region whose first guess is already right); tests sample a few irregular outlines.", "anchors": ["coral/coord.py:184-219"]}
{"id": "C117", "title": "pprint lays a table out in columns", "statement": "pprint(table, keys) prints a line with the names, a ruler and one line per row in order; all lines have the same columns, each exactly as wide as its longest text (name included), so a cell can be read back from its position; with no keys the columns are those of the first row; a missing column raises before anything is printed.", "quantifier": "All tables, keys and cell texts, including empty and ragged ones.", "why_tests_cant": "Alignment of every cell for every combination of lengths is not coverable by sample tables.", "anchors": ["coral/table.py:109-121"]}
{"id": "C118", "title": "A gradient refuses positions outside [0, 1]", "statement": "For a gradient built from stops in [0, 1], get(x) and get_hex(x) raise for every x > 1 and every x < 0 rather than inventing a colour.", "quantifier": "All non-empty stop lists in [0, 1] and all positions outside.", "why_tests_cant": "Negative indices do not fail in Python, so a wrong colour shows up as a plausible value; only an argument over all positions and stop lists tells which inputs are refused.", "anchors": ["coral/gradient.py:25-49"]}
{"id": "C119", "title": "The predefined gradients are the documented colour curves", "statement": "gray.get(x) = (x, x, x); bwr goes from blue through white at 1/2 to red; heat has red = clamp(4x-2), green = clamp(min(4x, 4-4x)), blue = clamp(2-4x); height is the affine interpolation of its four stops; for each of them get_hex(x) is '#' and three hexadecimal digits for every x in [0, 1].", "quantifier": "All x in [0, 1], over every ordered field.", "why_tests_cant": "The curves are piecewise and continuous; sampling cannot exclude a wrong piece or a position where the text is malformed.", "anchors": ["coral/gradient.py:51-75"]}
{"id": "C120", "title": "iterShapes gives the shapes of the file, in order", "statement": "`for s in r.iterShapes()` gives exactly what r.shapes() returns, in order and ending; also if the body of the loop looks shapes up with r.shape(k).", "quantifier": "All geometry files, all loop bodies consisting of lookups, all shapes looked up.", "why_tests_cant": "The iterator shares the position of the open file with every other method; whether interleaved uses disturb it is a question about all executions, including ones that never end.", "anchors": ["coral/shapefile.py:414-426", "coral/shapefile.py:443-451"]}
{"id": "C121", "title": "iterRecords gives the records of the file, in order", "statement": "`for x in r.iterRecords()` gives exactly what r.records() returns, in order; also if the body of the loop looks records up with r.record(k).", "quantifier": "All attribute files, all loop bodies consisting of lookups, all records looked up.", "why_tests_cant": "The generator's state and the file position interleave; sample runs cover single schedules only.", "anchors": ["coral/shapefile.py:534-543", "coral/shapefile.py:558-568"]}
{"id": "C122", "title": "shapeRecord(i) pairs the i-th shape with the i-th record", "statement": "For saved files with as many records as shapes, shapeRecord(i) is the i-th shape with the i-th record for every -n <= i < n (counted from the end if negative) and raises IndexError for every other i; deleted records do not shift the pairs.", "quantifier": "All saved files, all indices, whatever was read before.", "why_tests_cant": "Needs every index and every pair of files; negative indices, caches and file positions interact.", "anchors": ["coral/shapefile.py:570-574", "coral/shapefile.py:306-314"]}
{"id": "C123", "title": "Elevations and measures of single points come back", "statement": "In a saved POINTZ file every point is read with the elevation and measure it was given (point(x, y, z, m), or the attributes z and m of a shape that was read before); in a POINTM file with its measure.", "quantifier": "All writers with such shapes, all values.", "why_tests_cant": "The value written depends on the presence of attributes and on the length of the coordinate list; all files have to be considered.", "anchors": ["coral/shapefile.py:853-888", "coral/shapefile.py:379-387"]}
{"id": "C124", "title": "Lines, polygons and multipatches with elevations can be saved and come back", "statement": "poly(parts, POLYLINEZ / POLYGONZ / MULTIPATCH) with elevations as third coordinates can be saved, and reading gives the points, parts, part types and elevations.", "quantifier": "All writers, all parts, the types 13, 15 and 31.", "why_tests_cant": "A round trip through a binary format over all shapes; that it can never succeed cannot be shown by trying.", "anchors": ["coral/shapefile.py:828-850", "coral/shapefile.py:366-378"]}
{"id": "C125", "title": "Multipoints with elevations or measures come back", "statement": "A saved file of type MULTIPOINTZ or MULTIPOINTM can be read, and gives the points that were saved.", "quantifier": "All such files with at least one shape.", "why_tests_cant": "Samples can show failures, not that every file fails.", "anchors": ["coral/shapefile.py:352-378", "coral/shapefile.py:811-850"]}
{"id": "C126", "title": "Part types default to the type of the shape", "statement": "poly(parts, MULTIPATCH) without part types gives the shape its own type once for each of its parts, whatever other shapes were made before or after.", "quantifier": "All sequences of calls, all numbers of parts.", "why_tests_cant": "Depends on the history of calls through a shared default argument; a test with one shape passes.", "anchors": ["coral/shapefile.py:941-970"]}
{"id": "C127", "title": "A text is anchored where it is put", "statement": "addtext(pos, text, size, font, anchor) draws the text once, in that size and font, so that the point of its extent named by the anchor (a corner, the middle of a side, or the centre) is at pos.", "quantifier": "All canvases, texts, positions, sizes, anchors, and all fonts: whatever the extent of the glyphs is.", "why_tests_cant": "Depends on a PostScript interpreter and on the shapes of glyphs; a test would have to look at the page for every font.", "anchors": ["coral/defs.ps", "coral/vector.py:229-237"]}
{"id": "C128", "title": "A text is drawn as it was given", "statement": "The string that a PostScript interpreter reads from the line written by addtext is the text that was given, and what follows the string is read as such.", "quantifier": "All texts.", "why_tests_cant": "Quoting has to be right for every string; tests take harmless ones.", "anchors": ["coral/vector.py:229-237"]}
{"id": "C129", "title": "A circle is nothing but a circle", "statement": "What addcircle fills or strokes on the page is the full circle with the given centre and radius, and no other line, whatever was drawn before.", "quantifier": "All sequences of calls before and after, all centres and radii.", "why_tests_cant": "Depends on the current path an interpreter is left with by all earlier calls.", "anchors": ["coral/vector.py:139-154"]}
{"id": "C130", "title": "A drawing leaves the operand stack of the interpreter as it was", "statement": "Running a saved file leaves nothing on the operand stack, so that files can be embedded and drawings of any length can be run.", "quantifier": "All sequences of drawing calls.", "why_tests_cant": "Nothing is visible on the page until a stack overflows or an enclosing document breaks.", "anchors": ["coral/defs.ps", "coral/vector.py:206-227"]}
{"id": "C131", "title": "Canvas.export writes the image where it is told", "statement": "The command that Canvas.export(path, device) hands to the shell runs Ghostscript with exactly this path as its output file and the saved file as its input.", "quantifier": "All paths; devices with plain names.", "why_tests_cant": "Quoting has to be right for every path.", "anchors": ["coral/vector.py:309-317"]}
{"id": "C132", "title": "export passes file names to Ghostscript unchanged", "statement": "The command that export(pspath, output, device) hands to the shell runs Ghostscript with output as its output file and pspath as its input.", "quantifier": "All pairs of paths; devices with plain names.", "why_tests_cant": "Quoting has to be right for every path.", "anchors": ["coral/vector.py:319-324"]}
{"id": "C133", "title": "Exports do not interfere", "statement": "After Canvas.export(path) the image at path shows the canvas and no other file has changed, whatever was on the disk and whatever other exports are running.", "quantifier": "All canvases, all disks, all interleavings of two exports.", "why_tests_cant": "Interleavings of two processes; a test sees one of them.", "anchors": ["coral/vector.py:309-317"]}
{"id": "C134", "title": "An animation shows its canvases in order at one scale", "statement": "animation(gifpath, frames) leaves at gifpath the frames in order, each saved with one and the same box, which covers the boxes of all the canvases.", "quantifier": "All non-empty lists of canvases, all names.", "why_tests_cant": "Needs external programs, and quoting has to be right for every name.", "anchors": ["coral/vector.py:326-343"]}
{"id": "C135", "title": "An animation leaves its canvases as they were", "statement": "After animation(gifpath, frames) every canvas has the box and the contents that it had before.", "quantifier": "All lists of canvases.", "why_tests_cant": "A universal statement on state that the caller shares with the function.", "anchors": ["coral/vector.py:326-343"]}
{"id": "C136", "title": "Null shapes can be kept among other shapes", "statement": "A Writer with null shapes among shapes of one other type saves a file that a Reader reads back as the same shapes, null ones included.", "quantifier": "All sequences of shapes, null shapes at any place.", "why_tests_cant": "Unbounded sequences with null shapes at every position.", "anchors": ["coral/shapefile.py:677-687", "coral/shapefile.py:724-754", "coral/shapefile.py:925-927", "coral/shapefile.py:1008-1016"]}
{"id": "C137", "title": "bbox() is the exact box of all points", "statement": "bbox() of a Writer is [least x, least y, greatest x, greatest y] over all points of all shapes and raises ValueError if there are none; the header of the saved file holds the same four numbers.", "quantifier": "All shapes, all coordinates.", "why_tests_cant": "Extremes over arbitrarily many points.", "anchors": ["coral/shapefile.py:677-687", "coral/shapefile.py:710-714", "coral/shapefile.py:724-754"]}
{"id": "C138", "title": "zbox() and mbox() are the exact ranges of elevations and measures", "statement": "zbox() and mbox() of a Writer give the least and the greatest elevation and measure of all points.", "quantifier": "All shapes, all coordinates, Writers and Editors.", "why_tests_cant": "Extremes over arbitrarily many points, and states of an Editor that come from a file.", "anchors": ["coral/shapefile.py:689-708", "coral/shapefile.py:716-722"]}
{"id": "C139", "title": "Opening a shapefile in an Editor and saving it changes no shape", "statement": "If a file that the Writer saved is opened with Editor(name) and saved again, its shape records are the same.", "quantifier": "All files saved by a Writer, all shape types.", "why_tests_cant": "A round trip over all files.", "anchors": ["coral/shapefile.py:1066-1078", "coral/shapefile.py:787-896"]}
{"id": "C140", "title": "Opening a shapefile in an Editor and saving it changes no attribute", "statement": "If a file that the Writer saved is opened with Editor(name) and saved again, it has the same fields and attribute records.", "quantifier": "All files saved by a Writer.", "why_tests_cant": "A round trip over all fields and values.", "anchors": ["coral/shapefile.py:1066-1078", "coral/shapefile.py:905-923", "coral/shapefile.py:756-785"]}
{"id": "C141", "title": "Editor.delete deletes exactly the part or point that is named", "statement": "delete(shape, part, point) removes that point (or that part, if no point is given) from that shape, or from all shapes if no shape is given, and nothing else.", "quantifier": "All editors, all numbers.", "why_tests_cant": "All editors and all combinations of arguments; the loop changes the list it runs over.", "anchors": ["coral/shapefile.py:1085-1112"]}
{"id": "C142", "title": "Editor.point with an address updates that point", "statement": "point(x, y, z, m, shape, part, point) with the number of a shape that is there changes that point of that shape and adds no shape.", "quantifier": "All editors, all numbers, all coordinates.", "why_tests_cant": "All editors and all combinations of arguments.", "anchors": ["coral/shapefile.py:1114-1159"]}
{"id": "C143", "title": "record() keeps values with their fields", "statement": "record(*values) adds a record of the first values, one for each field, and raises IndexError if there are too few; record(**values) adds a record in which each field has the value of its keyword and fields without one are empty.", "quantifier": "All fields, all values, all sets of keywords.", "why_tests_cant": "All subsets of keywords; what is wrong shows only after saving and reading.", "anchors": ["coral/shapefile.py:976-999", "coral/shapefile.py:905-923"]}
{"id": "C144", "title": "A saved shapefile is what opening its name gives, and saving under another name leaves it alone", "statement": "After w.save(target) succeeded, Reader(target) reads exactly the three files that were written; and saving a second shapefile under a different target does not change what Reader(target) reads.", "quantifier": "all targets, all disks, all pairs of shapefiles", "why_tests_cant": "Tests use a few plain names; which pairs of names collide depends on where the dots are.", "anchors": ["coral/shapefile.py:270-293", "coral/shapefile.py:1008-1065"]}
{"id": "C145", "title": "A save that raises leaves the files as they were", "statement": "If save(target) raises, the files on disk, in particular an earlier shapefile under the same target, are as they were before the call.", "quantifier": "all shapefiles that cannot be written, all disks", "why_tests_cant": "Each way of failing leaves a different mixture of old and new files; tests check that an exception is raised, not what is on the disk after it.", "anchors": ["coral/shapefile.py:606-616", "coral/shapefile.py:1008-1065"]}
{"id": "C146", "title": "The progress meter is updated no more often than asked", "statement": "While iterating over tqdm(iterable, mininterval, miniters), two updates of the meter are at least miniters items and mininterval seconds apart, so there is at most one update per interval; and every item that is due is reported when the interval is zero.", "quantifier": "all iterables, all clocks, all intervals", "why_tests_cant": "Depends on the times at which items arrive; tests run with one timing.", "anchors": ["coral/tqdm.py:77-126"]}
{"id": "C147", "title": "Adding a shape does not change the arguments, and changing the arguments later does not change the shape", "statement": "Writer.poly(parts) leaves the lists passed to it as they were, and a later change to one of these lists does not change what will be saved.", "quantifier": "all parts of lists and tuples, all shape types, all later changes to a list", "why_tests_cant": "Tests pass literals, which nobody looks at again.", "anchors": ["coral/shapefile.py:940-969"]}
{"id": "C148", "title": "Creating a gradient leaves the list of stops alone", "statement": "Gradient(points) does not change the list points of the caller.", "quantifier": "all lists of stops", "why_tests_cant": "Tests pass literals, which nobody looks at again.", "anchors": ["coral/gradient.py:25-32"]}
{"id": "C149", "title": "Saving into open files gives the files that saving by name gives", "statement": "w.save(shp=f, shx=g, dbf=h) with open files leaves in them what w.save(target) would have written to disk, whatever the files contained and wherever they were positioned, so that reading them gives the saved shapes and records.", "quantifier": "all writers, all older contents and positions of the files", "why_tests_cant": "Tests use empty buffers; what is left of older contents depends on both lengths.", "anchors": ["coral/shapefile.py:724-754", "coral/shapefile.py:756-785", "coral/shapefile.py:786-896", "coral/shapefile.py:1008-1065"]}
{"id": "C150", "title": "A missing file matters only to what depends on it", "statement": "If one of the files .shp, .shx, .dbf is missing, opening the shapefile does not raise; shapes can be read, also one by one, without .shx and .dbf, and records without .shp and .shx.", "quantifier": "all shapefiles, all subsets of the files, all indices", "why_tests_cant": "The class promises this for every combination of files and every call; tests try a few.", "anchors": ["coral/shapefile.py:210-228", "coral/shapefile.py:228-293", "coral/shapefile.py:394-426"]}
{"id": "C151", "title": "Loading another shapefile into a reader is like opening it with a new reader", "statement": "After reader.load(name), every method of the reader gives what it gives for a new Reader(name), whatever the reader was used for before.", "quantifier": "all pairs of shapefiles, all uses of the reader in between", "why_tests_cant": "Depends on what earlier calls left behind in the object.", "anchors": ["coral/shapefile.py:270-293", "coral/shapefile.py:394-426", "coral/shapefile.py:453-485"]}
{"id": "C152", "title": "nearest() rounds floats to the closest integer", "statement": "For every finite float x, nearest(x) is the integer closest to x, and of two equally close ones the one further from zero, as in exact arithmetic.", "quantifier": "every finite IEEE double", "why_tests_cant": "The failing floats are a single value near 0.5 and a range above 2**52; sampled floats practically never hit them.", "anchors": ["coord.py:36 nearest", "raster.py:30 nearest"]}
{"id": "C153", "title": "Alpha blending on floats stays in range and follows alpha", "statement": "With two bytes and any float alpha from 0 to 1, the blended value is an integer between the two bytes, within rounding of the exact mix; alpha 0 and 1 give the background and the foreground exactly; and a larger alpha never gives less of the foreground.", "quantifier": "every pair of bytes and every float alpha (or pair of alphas) from 0 to 1", "why_tests_cant": "There are about 2**62 alphas; the failing pairs are neighbouring floats near a rounding boundary.", "anchors": ["raster.py:234-237 blend", "raster.py:279-282 blend"]}
{"id": "C154", "title": "Union and intersection of boxes of floats do what they do in exact arithmetic", "statement": "For boxes whose corners are finite floats, bool(box), a | b and a & b give what exact arithmetic gives: a box is true exactly when its width and height are positive, a union covers both, an intersection has exactly the common points.", "quantifier": "every pair of boxes with finite float corners and ordered corners (no overflow)", "why_tests_cant": "The rounding that matters happens only in products of very small extents.", "anchors": ["bbox.py:65-86 __bool__, __or__, __and__", "bbox.py:128-130 area"]}
{"id": "C155", "title": "Moving, scaling and centring boxes of floats keeps them sound", "statement": "For boxes with float corners: the centre lies in the box; moving and scaling (by a factor of at least 0) keep the corners in order; what lies in the box still does after both have moved; and moving there and back gives the same box.", "quantifier": "every box of finite floats (no overflow), every displacement and factor", "why_tests_cant": "Rounding errors depend on the relative size of the coordinates and the displacement; tests use round numbers for which the operations are exact.", "anchors": ["bbox.py:114-118 center", "bbox.py:155-173 translate, scale"]}
{"id": "C156", "title": "Averages and variances of floats", "statement": "With the arithmetic of doubles, stats.var(seq) of a non-empty list is never negative, so std_dev finds a root; stats.avg(seq) is within three rounding errors of the exact mean; and it lies between the smallest and the largest element. The last part fails: avg([0.1, 0.1, 0.1]) is above 0.1 and var of that list is not 0. It holds when the bounds times the number of elements are floats.", "quantifier": "for all non-empty lists of doubles (no overflow)", "why_tests_cant": "a test samples a few lists; the bound is about every list, and the violation needs the exact rounding of the sum", "anchors": ["coral/stats.py:32-43"]}
{"id": "C157", "title": "Gradients on floats", "statement": "For a gradient whose stops have float positions and channels from 0 to 1, get(x) at every float x from 0 to 1 is within 2**-48 of the prescribed colour in each channel, is exactly the stop's colour at a stop, and get_hex(x) always gives one hexadecimal digit per channel, the digit of the exact colour unless that is within 2**-40 of the next one. A gradient between two equal colours gives that colour everywhere: this fails by rounding (white to white gives #eee at some x).", "quantifier": "for all lists of stops and all floats x in [0, 1]", "why_tests_cant": "whether a rounding error crosses a digit boundary depends on all 53 bits of x; sampling does not find or exclude it", "anchors": ["coral/gradient.py:18-49"]}
{"id": "C158", "title": "Real columns of grids on floats", "statement": "A real column (FVar) with float bounds gives every float of its range an index from 0 to the last one, refuses every other float with AssertionError, and both index and value are monotone; what comes back is within half a quantum of what was stored plus a rounding error relative to the bounds; the first index stands for the minimum exactly. An index is found again from the number it stands for, when the floats of the range can tell the indices apart: this fails for the last index, which can stand for a number above the maximum (-6.7 to 9.6 on one byte).", "quantifier": "for all float bounds, sizes, nullable or not, and all floats", "why_tests_cant": "the failing bounds are isolated pairs of floats; the error bound is about all of them", "anchors": ["coral/grid.py:78-115"]}
{"id": "C159", "title": "Coordinates of P files on floats", "statement": "With the arithmetic of doubles, the stored box of an entity consists of 16-bit integers and contains the entity up to 5*2**-51 of the half range; with 1, 2 or 4 bytes per number every point fits and comes back within half a quantum of the box plus 2**-47 of the half range. With 8 bytes an entity that reaches the longitude 180 cannot be written (struct.error), and an entity narrower than 2**-48 of the half range may fail with ZeroDivisionError.", "quantifier": "for all boxes and points with float coordinates in range, sizes 1, 2, 4 and 8", "why_tests_cant": "the overflow of the 8-byte integer happens only at the last float of the box, and the fit of 4-byte integers depends on all rounding errors together", "anchors": ["coral/pf.py:193-215", "coral/pf.py:268-304"]}
{"id": "C160", "title": "Wrapping of float coordinates terminates", "statement": "pf.Writer.write wraps a float longitude in finitely many steps exactly when it lies from -2**62 to 2**62 (beyond that adding 360 does nothing and write never returns), and the result lies from -180 to 180; up to 2**56 it differs from the longitude by an exact multiple of 360. For latitudes the loops end exactly from -2**61 to 90, with a result from -90 to 90, exact from -2**55.", "quantifier": "for all floats", "why_tests_cant": "a test cannot observe that a loop never ends, nor try every float", "anchors": ["coral/pf.py:163-176"]}
{"id": "C161", "title": "A shapefile written by the library converts to a P file with the same polygons", "statement": "Polygons added to a shapefile Writer with poly(), with attribute records that fit their fields, saved, and then converted with sf2pf: opening the resulting P file gives the names that getname derives from the attributes, in order, and reading entity i gives the rings of polygon i as they were given to poly (without closing points), each coordinate within half a quantum of the polygon's box. With ASCII names and rings that have extent the conversion succeeds.", "quantifier": "All lists of polygons with any number of rings and points, all attribute records that fit, all name functions and all four coordinate sizes.", "why_tests_cant": "Four modules' formats (shp, dbf, shapeRecords, P file) have to agree on every length, offset and closing convention at once; a test converts a few files.", "anchors": ["coral/pf.py:140-149", "coral/pf.py:150-250", "coral/shapefile.py:335-390", "coral/shapefile.py:576-581", "coral/shapefile.py:941-970"]}
{"id": "C162", "title": "The text of a buffer shows its contents in order", "statement": "After any sequence of push, pop, peek, shift, isempty and isfull calls on a new Buffer (capacity a power of two), str(buffer) terminates without raising and is the contents, oldest first, separated by single blanks between angle brackets; '<>' when empty.", "quantifier": "All capacities 2^j, all sequences of calls (including refused ones and wrap-around) and all objects.", "why_tests_cant": "The loop over ring-buffer positions ends only if the two indices meet modulo twice the capacity; which wrap-around states occur depends on the whole history.", "anchors": ["coral/coord.py:51-61", "coral/coord.py:63-95"]}
{"id": "C163", "title": "Names and hours of float bearings", "statement": "bearing2cardinal of a float never raises and names a wind at most 11.25 degrees from the bearing on the circle, plus a rounding margin of |b| * 2**-53 + 2**-42 degrees; a bearing further than the margin from every middle between two winds (in particular every whole number of degrees up to 2**50) gets the name of its nearest wind. bearing2hours of a float is in (0, 12], never 0, and 30 times the hour is the bearing counted the other way, up to the same margin.", "quantifier": "All finite floats.", "why_tests_cant": "The exact claim (C19) says nothing about b + 360, % 360 and / 45 each rounding: a bearing just below 0 or just below 360 could round to the other end of the circle, to hour 0 or past the end of the table; a test tries a few bearings.", "anchors": ["coral/coord.py:36", "coral/coord.py:221-234"]}
{"id": "C164", "title": "Reduction of float angles terminates", "statement": "proj.corangle of a float ends exactly when the angle is from -2**56 to 2**56 (beyond that adding 2*pi changes nothing and it never returns); the result is from -math.pi to math.pi and is the angle itself if that is already in the range. Up to 64 radians nothing is rounded: the result differs from the angle by a whole multiple of 2*math.pi, within 1e-15 per turn of the same direction.", "quantifier": "All finite floats.", "why_tests_cant": "A test cannot observe that a loop never ends, nor try every float.", "anchors": ["coral/proj.py:27-33"]}
{"id": "C165", "title": "EMercator.rect2geo ends, and its latitude is as exact as its arithmetic", "statement": "The loop of EMercator.rect2geo ends; and if every round computes its latitude with an error of at most eta, the latitude that is returned is off by at most eta / (1 - e*e), whatever latitude the loop was started with; after n rounds the error of the start is multiplied by at most e**(2*n).", "quantifier": "all ellipsoids with e*e <= 1/2, all points of the map, all ways of rounding", "why_tests_cant": "The loop ends on the equality of two floats; that equality depends on how every step is rounded, and in exact arithmetic it never holds off the equator.", "anchors": ["coral/proj.py:145-157 EMercator.rect2geo"]}
{"id": "C166", "title": "Anti-aliased lines are right despite rounding", "statement": "When a gray canvas draws the anti-aliased line between two different pixels (aaline, or a side of strokepolygon), the ordinate is a running sum of float gradients. For all pixels with coordinates below 65536, this drift gives every pixel its weight in the line (one less the distance, half of it at the ends) to within 2^-18, all alphas are from 0 to 1, and each pixel of the canvas ends between its old value and the colour and within 1/2 + 2^-9 gray levels of the exact mix, whatever the length of the line, if the line fits the canvas as in C111.", "quantifier": "for all pairs of different pixels with coordinates below 65536, all gray canvases, all byte colours", "why_tests_cant": "the error depends on the gradient and grows with the length of the line; a test only sees the rounding of the lines it draws", "anchors": ["coral/raster.py:105-163", "coral/raster.py:224-237"]}
{"id": "C167", "title": "Grid cells of float coordinates", "statement": "Frame.point(scale, p) with float coordinates and a positive float scale puts the projected point into exactly the cell where it is (i*scale <= x < (i+1)*scale in exact arithmetic, even where the rounded quotient x/scale is another integer), for points within 2^49 cells. sqr_fit, the first step of simplify and planify, takes each point to a node at most half a cell plus (|x|+scale)*2^-53 away, one node for each point in order, and points on the grid stay where they are.", "quantifier": "for all positive float scales, all float points within 2^49 cells, all projections (as functions that return floats)", "why_tests_cant": "the floats where a rounded quotient crosses a cell border are rare and depend on the scale", "anchors": ["coral/frame.py:85-90", "coral/coord.py:243-247"]}
{"id": "C168", "title": "Correlation of float columns", "statement": "The correlation of two columns of floats that are not constant is a number from -1 to 1, equal to 1 for a column with itself; swapping the columns does not change it, changing all signs of one column changes its sign; a constant column raises ZeroDivisionError.", "quantifier": "all pairs of columns of equal length, with every operation rounded to the nearest double and any correctly rounded square root", "why_tests_cant": "The bound is lost by rounding in few of the columns, by an amount that depends on their length; tests on samples do not bound it.", "anchors": ["coral/stats.py:40-63"]}
{"id": "C169", "title": "The text of an object evaluates to the object", "statement": "eval(repr(box)) == box for every BBox whose coordinates print in a form that reads back (in particular integers), eval(repr(buffer)) is an empty Buffer of the same capacity, and eval(repr(var)) is a variable with the name, bounds, size and nullability of var for every IVar, FVar and SVar.", "quantifier": "all boxes, all buffers, all variables of grids", "why_tests_cant": "The text depends on every coordinate and bound; examples of texts do not show that no two boxes print alike or that no variable at all survives.", "anchors": ["coral/bbox.py:53-54", "coral/coord.py:48-49", "coral/grid.py:28-50", "coral/grid.py:80-95", "coral/grid.py:125-131"]}
{"id": "C170", "title": "Editor(name) edits the shapefile of that name", "statement": "If Editor(name) returns, the editor can be used, and holds the shapes, fields and records of the shapefile that Reader(name) reads; what was saved under a name is what an Editor of that name holds. A call on an editor never damages files because its constructor did not find a file.", "quantifier": "all names, all disks, all calls after opening", "why_tests_cant": "The outcome depends on the dots in the name and on which files are on the disk; a test opens one well-named file that is there.", "anchors": ["coral/shapefile.py:1066-1078", "coral/shapefile.py:270-293", "coral/shapefile.py:606-616", "coral/shapefile.py:1008-1065"]}
{"id": "C171", "title": "Deleted records of an attribute file are left out, and only they", "statement": "For every attribute file that can be opened, whoever wrote it: record(i) is None exactly if the i-th record does not begin with a blank; records() gives, in order, the rows of all records that begin with a blank; every row has one value per field; and a file whose field descriptors are not ended where its header says is refused.", "quantifier": "all attribute files, all numbers of records", "why_tests_cant": "Which records are marked, and with what byte, depends on the program that wrote the file; tests have files of one writer.", "anchors": ["coral/shapefile.py:453-485", "coral/shapefile.py:495-556"]}
{"id": "C172", "title": "Distances between any two positions on floats", "statement": "haversine, called with floats, returns a number for any two positions with latitudes from -90 to 90 and longitudes that differ by at most 360, with or without a radius; the number is not negative, is exactly 0 if the positions are the same, and differs from the length of the great circle arc by at most the radius times 2**-20. radiusat returns a number between the polar and the equatorial radius, up to a millimetre.", "quantifier": "all latitudes, longitudes and radii that are floats", "why_tests_cant": "The sums of squares of rounded sines and cosines exceed 1 for some latitudes only; a test that tries a few antipodes sees none of them or does not know how rare they are.", "anchors": ["coral/coord.py:98-125"]}
{"id": "C173", "title": "The azimuthal equidistant projection near its centre", "statement": "AzimuthalEquidistant(origin, radius).geo2rect(lon, lat), called with floats, returns a point of the plane for every position but the antipode of the origin; the origin is put at (0, 0), and in the hemisphere around the origin the point is within radius * 2**-19 of the exact one.", "quantifier": "all origins, all positions, all radii that are floats", "why_tests_cant": "The exceptions are raised only for positions within centimetres of the centre or with another name of the centre; random positions never come that close.", "anchors": ["coral/proj.py:300-323"]}
{"id": "C174", "title": "Orientation of rings on floats", "statement": "The interface given for a polygon with several rings tells outer rings from holes by the sign of signed_area(ring), calculated on floats. The error of the area of a closed ring with n points, abscissas up to X and differences of ordinates up to H is at most n**2 * X * H * 2**-50 + n * 2**-1073; so the sign is right, and the interface groups rings as exact numbers would, for rings that enclose more than that. Areas of rings on a grid that is coarse enough are exact.", "quantifier": "for all closed rings of up to 2**52 points with finite coordinates, and all polygons", "why_tests_cant": "Rounding errors depend on each coordinate; whether the sign is right for all rings of an atlas is not a matter of samples, and a bound for every number of points needs induction.", "anchors": ["coral/shapefile.py:104-112", "coral/shapefile.py:128-198"]}
{"id": "C175", "title": "Inequality of float columns", "statement": "On columns of floats (2 to 2**25 incomes, zero or at least 2**-300, not all zero) gini_kakwani returns a number that is not negative, zero exactly if all incomes are equal, and off by at most the factor (n(n-1)/2 + 5) * 2**-51; gini_deaton returns a number off by at most (3n + 17) * 2**-51; both are in the range from 0 to 1.", "quantifier": "for all columns of non-negative floats of any length up to 2**25", "why_tests_cant": "Rounding errors add up over all pairs; a bound that holds for every column is needed to trust the digits, and samples cannot show it.", "anchors": ["coral/stats.py:66-77", "coral/stats.py:81-90"]}
{"id": "C176", "title": "Matches of names do not depend on rounding", "statement": "mapping(keys, values) calculated with floats gives for every key the value that exact numbers would give, the matches in the same order, and scores off by at most 2**-51.", "quantifier": "for all lists of keys and non-empty values whose lengths together stay below 2**25", "why_tests_cant": "The choice of the least error and the order of the scores could change whenever two fractions are rounded to the same or to swapped floats; no finite set of names rules that out.", "anchors": ["coral/names.py:68-71", "coral/names.py:120-130"]}
{"id": "C177", "title": "Likeness of names on floats", "statement": "For names that are not empty jaro and jaro_winkler return floats that are right up to 2**-49 (relative) and (1 + jaro) * 2**-47; they are not negative, for names of equal length jaro <= jaro_winkler <= 1, and for equal names both are exactly 1.", "quantifier": "for all pairs of non-empty names shorter than 2**50", "why_tests_cant": "A sum of three rounded fractions divided by 3 may exceed 1 or miss it for equal names; that it does not, for all lengths, follows only from the properties of rounding.", "anchors": ["coral/names.py:74-106", "coral/names.py:109-118"]}
{"id": "C178", "title": "Mercator projection on floats", "statement": "Calculated with floats, Mercator.geo2rect projects every latitude above -90 up to and including 90 (the ordinate stays within 39 radii) and raises ProjectionError for -90. Up to a degree from the poles y is right up to r * 2**-41 and x up to r * 2**-45 and whole turns, and rect2geo gives the position back: the latitude up to 2**-35 degrees, the longitude up to 2**-38 degrees and whole turns, between -180 and 180.", "quantifier": "for all radii >= 1, all longitudes and central longitudes from -360 to 360, all float latitudes", "why_tests_cant": "The error of log(tan(...)) grows without bound towards the poles and corangle may turn the longitude by a whole turn near the edge; only a bound for every float shows that a map can be read back.", "anchors": ["coral/proj.py:110-116", "coral/proj.py:118-122"]}
{"id": "C179", "title": "Destinations on floats", "statement": "Calculated with floats, destination(lon, lat, bear, dist, R) returns a position whose latitude is right up to 2**-33 degrees and whose longitude, between -180 and 180, is right up to 2**-25 degrees and whole turns.", "quantifier": "for all starts, bearings from -360 to 360, radii and distances of at most 4 radii", "why_tests_cant": "asin is called with a rounded sum that may exceed 1 and is ill-conditioned near the poles; whether a given start, bearing and distance raise is decided by the last bit.", "anchors": ["coral/coord.py:136-163"]}
{"id": "C180", "title": "Bearings on floats", "statement": "Calculated with floats, bearing(lon1, lat1, lon2, lat2) is between -180 and 180 and right, up to whole turns, with an error of at most 2**-38 degrees divided by the sine of the distance.", "quantifier": "for all pairs of positions on the globe whose longitudes differ by at most 360 degrees, and the sine of whose distance is at least 2**-36", "why_tests_cant": "The differences of products cancel for near positions; only a bound that names the distance says how near two points may be for the direction to be meaningful.", "anchors": ["coral/coord.py:127-134"]}
{"id": "C181", "title": "Midpoints on floats", "statement": "Calculated with floats, midpoint(lon1, lat1, lon2, lat2) returns for all positions. If the sum of the two positions is at least h away from the axis, 2**-10 <= h <= 1, the latitude is right up to 2**-37 / h**2 degrees and the longitude up to 2**-38 / h degrees and whole turns.", "quantifier": "for all pairs of positions on the globe with longitudes at most 360 degrees apart", "why_tests_cant": "The square root of a rounded sum of squares and the arctangent of two small numbers lose digits near the poles and for antipodes; samples do not show how many.", "anchors": ["coral/coord.py:165-182"]}
{"id": "C182", "title": "Transverse Mercator projection on floats", "statement": "Calculated with floats, TransMercator.geo2rect either returns a point within 20 radii east or west and 4 radii north or south, or raises ProjectionError, and nothing else; it raises ProjectionError for (90, 0) and (-90, 0) if the central meridian is 0, and only for positions where abs(cos(lat) * sin(lon - lon0)) is at least 1 - 2**-46. Where that product is at most 0.99 and the latitude at most 89 degrees, x is right up to r * 2**-39 and y up to r * 2**-30 and whole turns. rect2geo returns for all points, with a latitude from -90 to 90; for points within 4 radii of the origin whose exact latitude is at most 89 degrees both coordinates are right up to 2**-29 degrees, the longitude up to whole turns.", "quantifier": "for all radii >= 1 (rect2geo: not 0), origins on the globe and positions; for the bounds longitudes from -360 to 360", "why_tests_cant": "atanh and asin raise at and beyond 1, and the test b in (-1, 1) compares a rounded product; that no rounding slips past the test follows only from the spacing of floats.", "anchors": ["coral/proj.py:169-177", "coral/proj.py:179-184"]}
{"id": "C183", "title": "Stereographic and azimuthal equal-area projections on floats", "statement": "Calculated with floats, Stereographic.geo2rect and AzimuthalEqualArea.geo2rect return a point for every position but the antipode of the centre, and it is close to the exact point: where 1 + cos(c) is at least h, with c the angle from the centre, the coordinates are right up to r * 2**-43 / h**2.", "quantifier": "for all radii >= 1, centres and positions on the globe with longitudes from -360 to 360; for the bound 2**-20 <= h <= 1", "why_tests_cant": "The divisor 1 + cos(c) is a rounded sum that cancels towards the antipode; that it is neither 0 nor negative elsewhere, and how far the quotient may be off, follows only from bounds on every rounding.", "anchors": ["coral/proj.py:260-263", "coral/proj.py:265-275", "coral/proj.py:351-354", "coral/proj.py:356-366"]}
{"id": "C184", "title": "The description of a variable tells which it is", "statement": "str(v) of an IVar, FVar or SVar tells the variable: two IVars with the same str() have the same name, bounds and nullability, and the bounds can be read from the text; so have two FVars whose bounds print differently, and two SVars have the same name, size and nullability. IVars, FVars and SVars never have the same str().", "quantifier": "for all names, including names that look like parts of a description, bounds and sizes", "why_tests_cant": "Names are arbitrary texts, and the description does not quote them; that no name can imitate another description is a claim about all pairs of texts.", "anchors": ["coral/grid.py:52-56", "coral/grid.py:97-101", "coral/grid.py:133-137"]}
{"id": "C185", "title": "The diagonal of a box is its diameter", "statement": "BBox.hypot() is the greatest distance between two points of the box with its border; it is at least each side and at most their sum, 0 exactly if both sides are; translate() keeps it, and scale(k) multiplies it by abs(k).", "quantifier": "for all boxes with x0 <= x1 and y0 <= y1, all offsets and factors, in exact arithmetic", "why_tests_cant": "The greatest distance ranges over all pairs of points of the box.", "anchors": ["coral/bbox.py:132-134", "coral/bbox.py:155-161", "coral/bbox.py:163-173"]}
{"id": "C186", "title": "The conic equal-area projection is accurate on floats away from the tip of its cone, and fails at poles", "statement": "With correctly rounded library functions, whatever the parallels and the radius: if the mean of the sines of the parallels is at least h in size and the number under the root at least h squared, the constructor, geo2rect and scale return, geo2rect is off by at most r 2^-42/h^2 and scale by at most 2^-43/h^3; with parallels of at most 75 degrees and a mean of at least 2^-7 this holds of every position on Earth; and a position of at most 89 degrees of latitude is brought back by rect2geo up to 2^-34/h^4 degrees of longitude and 2^-27/h^3 degrees of latitude. Every position whose point is defined has a point, and comes back.", "quantifier": "all parallels, radii, positions and correctly rounded libraries", "why_tests_cant": "The failures lie at single positions (the poles) and depend on the last bit of the sines of the parallels; a test with other parallels passes.", "anchors": ["coral/proj.py:391-434", "coral/proj.py:80-91"]}
{"id": "C187", "title": "The oblique Mercator projection is accurate on floats away from its edge, and fails near it", "statement": "With a correctly rounded library, ObliqMercator.geo2rect returns for every position of at most 89 degrees of latitude whose longitude differs from that of the origin so that the cosine of the difference is at least 2**-40 in size, and where the number a (the sine of the distance from the line of true scale) is at most 0.99 in size; x is then right up to r * 2**-30 and y up to r * 2**-39. rect2geo, for points within 4 radii of the origin where the cosine of x / r is at least 2**-40 in size and whose exact latitude is at most 89 degrees, is right up to 2**-28 degrees. Every position for which the exact formulas give a point gets one.", "quantifier": "all origins with longitude from -360 to 360 and latitude from -90 to 90, radii >= 1, positions, and correctly rounded libraries", "why_tests_cant": "The quotient v / h is unbounded near two meridians and atanh near the edge; only a proof shows that the errors stay bounded where they are, and the failures depend on the last bit of a sum of products.", "anchors": ["coral/proj.py:192-213"]}
{"id": "C188", "title": "The scale factors of the transverse and oblique Mercator projections are accurate on floats away from the edge, and fail near it", "statement": "With a correctly rounded library, TransMercator.scale and ObliqMercator.scale return a number right up to 2**-36 wherever the number b or a (the sine of the distance from the line of true scale) is at most 0.99 in size, poles included. Wherever the exact scale factor is defined they return a number.", "quantifier": "all origins, radii and positions with longitudes from -360 to 360 and latitudes from -90 to 90, and all correctly rounded libraries", "why_tests_cant": "1 - b * b cancels near the edge; which positions end in a division by zero or in the root of a negative number depends on single roundings.", "anchors": ["coral/proj.py:186-190", "coral/proj.py:215-220"]}
{"id": "C189", "title": "The way back from the Mercator projection for the ellipsoid ends on floats, at the right place", "statement": "With a correctly rounded library and an eccentricity up to 1/2, EMercator.rect2geo comes to an end for every point with an ordinate of at least -709 equatorial radii and returns a longitude between -180 and 180 and a latitude between -90 and 90; with an ordinate of -710 equatorial radii or less it raises OverflowError. Where the ordinate is at most six equatorial radii in size and the exact projection leads a position to the point, the result is this position up to 2**-39 degrees, the longitude up to whole turns.", "quantifier": "all central meridians from -360 to 360 degrees, equatorial radii of at least 1, eccentricities from 0 to 1/2, abscissas up to 50 equatorial radii, all ordinates, and all correctly rounded libraries", "why_tests_cant": "The loop ends only when two floats are equal; a cycle of two neighbouring floats would make it run forever, and no number of tests excludes that for all ordinates.", "anchors": ["coral/proj.py:145-157", "coral/proj.py:28-34"]}
{"id": "C190", "title": "The Mercator projection for the ellipsoid is accurate on floats, and so is the round trip", "statement": "With a correctly rounded library and an eccentricity up to 1/2, EMercator.geo2rect returns for latitudes up to 89 degrees coordinates right up to 2**-41 equatorial radii, the abscissa up to whole turns; rect2geo leads them back to the position, up to 2**-33 degrees of latitude and, up to whole turns, 2**-38 degrees of longitude. The south pole raises ProjectionError.", "quantifier": "all central meridians and longitudes from -360 to 360, latitudes from -89 to 89, equatorial radii of at least 1, eccentricities from 0 to 1/2, and all correctly rounded libraries", "why_tests_cant": "The errors of a tangent, a power and a logarithm add up differently at every latitude; tests see single positions.", "anchors": ["coral/proj.py:132-157"]}
{"id": "C191", "title": "The scale factors of the Mercator projections are accurate on floats; the poles raise nothing", "statement": "With a correctly rounded library, Mercator.scale and EMercator.scale (eccentricity up to 1/2) return for latitudes up to 89 degrees a number right up to 2**-35. At the poles, where the scale is infinite, Mercator.scale raises no error but returns a number greater than 10**16.", "quantifier": "all longitudes, latitudes from -89 to 89 and the poles, eccentricities from 0 to 1/2, and all correctly rounded libraries", "why_tests_cant": "Errors of a quotient whose denominator goes to zero; tests see single latitudes, and the value at the poles depends on the rounding of pi / 2.", "anchors": ["coral/proj.py:124-127", "coral/proj.py:159-164"]}
{"id": "C192", "title": "The Eckert IV projection ends for every latitude on floats, also at the poles", "statement": "With a correctly rounded library, EckertIV.geo2rect ends for every position and returns two numbers: the loop never runs forever and never divides by zero, although the derivative vanishes at the poles. The result is the image of a place on the same meridian (up to whole turns) the sine of whose latitude is off by at most 1.5e-6, up to rounding errors of 2**-45 (abscissa) and 2**-47 (ordinate) radii.", "quantifier": "all central meridians and longitudes from -360 to 360, latitudes from -90 to 90, radii of at least 1, and all correctly rounded libraries", "why_tests_cant": "Whether an iteration on floats stops near a double root depends on the rounding in every round; tests see single latitudes.", "anchors": ["coral/proj.py:222-243"]}
{"id": "C193", "title": "The way back from the Eckert IV projection never fails on its own images, also at the poles", "statement": "With a correctly rounded library, EckertIV.rect2geo returns for every ordinate up to 1.3265 radii from the equator a position with a latitude between -90 and 90, whatever the rounding (neither inverse sine gets an argument beyond 1), and raises ValueError from 1.3266 radii on. Applied to the result of geo2rect it leads back to the longitude up to 2e-5 degrees and whole turns, and to a latitude whose sine is off by at most 1.5e-6; also at the poles.", "quantifier": "all central meridians and longitudes from -360 to 360, latitudes from -90 to 90, radii of at least 1, all abscissas and ordinates, and all correctly rounded libraries", "why_tests_cant": "One argument rounded to the float after 1 would raise ValueError; no test visits all floats near the poles.", "anchors": ["coral/proj.py:222-252"]}
{"id": "C194", "title": "Entities can be read by their place from the end", "statement": "For a reader of a file with n entities, read(-k) gives what read(n - k) gives, for k from 1 to n; indices from n on and below -n raise IndexError.", "quantifier": "for every file that PReader opens, every index", "why_tests_cant": "The offset is computed from a slice partlens[:idx] and the lengths from partlens[idx], which treat negative numbers by different rules; a test with one file of one or two entities does not tell if the two agree for all.", "anchors": ["coral/pf.py:290-306"]}
{"id": "C195", "title": "Which letters count in the Jaro similarity", "statement": "Of two names that are not empty, with n the length of the longer, the shorter padded with stars, let m be the number of places i of the first with the same character at i in the second or at some j with |i - j| at most n // 2 - 1. Then jaro is 0 if m is 0 and else (m/len1 + m/len2 + (m - t)/m)/3, where t counts the places i with another character in the second whose first partner j comes before the first partner of such a place before i. If one name is empty, jaro is 0, or ZeroDivisionError is raised if the other has a star.", "quantifier": "for all texts", "why_tests_cant": "The window, padding and counting interact; the failure needs an empty name and a star, which no usual test has.", "anchors": ["coral/names.py:74-106"]}
{"id": "C196", "title": "Columns of equal numbers", "statement": "The standard deviation of any numbers is not negative, and is 0 exactly if they are all equal. The correlation of sequences of the same length of which one has only equal numbers (or none) raises ZeroDivisionError.", "quantifier": "for all sequences of real numbers, with exact arithmetic and square root", "why_tests_cant": "Says for which of infinitely many sequences the result is defined.", "anchors": ["coral/stats.py:40-63"]}
{"id": "C197", "title": "Numbers left blank in an attribute file", "statement": "A numeric field that was left blank is read as 0, be it filled with blanks or with NULs. Whatever else a numeric field has is read as a number or raises an exception.", "quantifier": "for all contents of a numeric field", "why_tests_cant": "Fields are filled by other programs; the order of two tests decides between bytes and a number, and the test suite has no file with blank numbers.", "anchors": ["coral/shapefile.py:503-518"]}
{"id": "C198", "title": "No points among lines", "statement": "A writer of a type with parts (lines and polygons, not multipatches) with a shape that has no parts, such as point() adds, raises when it is saved, so no file is finished that readers would misread; UnboundLocalError is raised exactly if it is the first shape (multipatches included).", "quantifier": "for all writers of such a type and all their shapes", "why_tests_cant": "The size computation and the record loop fail at different places for different orders of shapes; tests save shapes of one kind.", "anchors": ["coral/shapefile.py:618-675", "coral/shapefile.py:787-896"]}
{"id": "C199", "title": "Tables refuse repeated, unusable and missing column names", "statement": "readfile raises ValueError if the names asked for (or else those in the file's first line) contain a repeated name or one that a named tuple does not accept; addkey under a name that the table already has raises ValueError before it yields a single row; join raises ValueError for such result names. A name that the file lacks never becomes an empty column: readfile raises for every file that has rows. What readfile does return has as many rows as the file has further lines with content, all with the same distinct names and one value for each.", "quantifier": "all files, tables, names, separators and comment marks", "why_tests_cant": "Universal over files and name lists; tests only see a few headings.", "anchors": ["coral/table.py: readfile, addkey, join"]}
{"id": "C200", "title": "Collinearity of points with float coordinates", "statement": "collinear(a, b, c) on floats is true iff the three points lie on one line. It does not depend on the order of b and c nor on which axis is which; it is right for points with coordinates k*2^e (k an integer up to 2^25, e >= -537), so for all integers up to 33 million.", "quantifier": "all triples of points with finite float coordinates, no overflow", "why_tests_cant": "The wrong answers need coordinates whose differences or products are rounded; tests use small integers.", "anchors": ["coral/coord.py: collinear"]}
{"id": "C201", "title": "Simplifying polylines with float coordinates", "statement": "simplify(points, m) on floats gives what it gives in exact arithmetic. Its first step, sqr_fit, keeps the order of coordinates, leaves multiples of m (as floats, up to 2^50 steps from the origin) where they are, yields one node for each point, and raises ZeroDivisionError for a step of 0 as soon as there is a point.", "quantifier": "all float coordinates and steps, no overflow", "why_tests_cant": "Whether a quotient and its rounding can move a point to another grid line is a claim about all floats.", "anchors": ["coral/coord.py: sqr_fit, simplify, nearest"]}
{"id": "C202", "title": "Saving makes the directories that are missing", "statement": "Writer.save(target) with a target in a directory that does not exist makes this directory and all missing ones above it; afterwards the three files are there, and no other file or directory has been made, changed or removed. If one of the names on the way is that of a file, or if the name itself is that of a directory, save raises and the disk is as before.", "quantifier": "all disks, all targets with any number of directories and slashes, relative to the working directory or to the root", "why_tests_cant": "Tests save into one or two directories; which directories are missing, repeated slashes and files in the way combine without limit.", "anchors": ["coral/shapefile.py:606-616", "coral/shapefile.py:1008-1034"]}
{"id": "C203", "title": "Attributes in encodings of one byte per character", "statement": "With the same single-byte encoding (latin-1, cp1252, ...) given to Writer and Reader, every text that the encoding has comes back from records(), whatever letters it contains, and integers too; each value takes exactly the bytes that its field has, so no other value is shifted. The names of fields come back too: their first ten characters, with underscores for blanks. Text that is too long is cut; a character that the encoding lacks raises, unless it is cut off.", "quantifier": "all encodings that map ASCII to itself and every other character they have to one byte, all field lists and records", "why_tests_cant": "The encodings, letters and field sizes cannot be listed; tests use ASCII text and utf-8.", "anchors": ["coral/shapefile.py:62-90", "coral/shapefile.py:471-481", "coral/shapefile.py:495-556", "coral/shapefile.py:775-783", "coral/shapefile.py:906-923"]}
{"id": "C204", "title": "The diagonal of a box on floats", "statement": "BBox.hypot() of a box of floats is the length of its diagonal up to about one unit in the last place; it is never less than a calculated side, zero exactly if both sides are zero (also for the smallest boxes), and a box within another has no longer diagonal.", "quantifier": "all boxes of floats, with a math.hypot that rounds correctly; overflow not considered", "why_tests_cant": "Rounding happens three times and differs for every box; underflow of the squares in a naive formula shows only for tiny boxes.", "anchors": ["coral/bbox.py:132-134"]}
{"id": "C205", "title": "The page of a drawing on floats", "statement": "Canvas.save(path, size, margin) with floats puts every point of the drawing's box where exact arithmetic would, up to a few units in the last place of the page and of the scaled coordinates; so the drawing lies between the margins up to that error, and can stick out by it. Saving with a size raises ZeroDivisionError exactly if the box has neither width nor height.", "quantifier": "all boxes of floats, sizes and margins with 0 <= margin, size - margin >= 2^-500 and a greater side between 2^-500 and 2^500; the error ZeroDivisionError for all boxes of floats; an interpreter that reads the numbers exactly", "why_tests_cant": "Four roundings follow each other, and the error of the centre grows with the distance from the origin; samples cannot bound it for all boxes.", "anchors": ["coral/vector.py:295-303", "coral/bbox.py:114-126"]}
