{
 "C01": {
  "status": "proved",
  "note": "both directions; zoom-0 exception and the 64-digit limit are theorems too"
 },
 "C04": {
  "status": "proved",
  "note": "exact arithmetic over the reals"
 },
 "C05": {
  "status": "proved",
  "note": "exact arithmetic over the reals"
 },
 "C06": {
  "status": "proved",
  "note": "exact arithmetic over the reals"
 },
 "C07": {
  "status": "proved",
  "note": "the misreading of negative coordinates is proved as C07_tileFromString_negative_misread"
 },
 "C26": {
  "status": "proved",
  "note": "the expectation that every point list round-trips is refuted; C26_roundtrip_iff is the exact condition"
 },
 "C28": {
  "status": "proved",
  "note": "the expectation of one orientation is refuted by C28_writers_opposite; the consequences are proved in general"
 },
 "C30": {
  "status": "proved",
  "note": "any number of layers, AddFeature with any geometry type or none; features without geometry read the start of the tile (C30_no_geometry_reads_tile_start is an example). go-pbf behaviour is assumed (Model/Pbf.lean)"
 },
 "C31": {
  "status": "proved",
  "note": "exact for tiles of any writer with closed layers (ReadRawTile: geometry last, with a witness why); C31_leaks_id is the witness of the inherited id"
 },
 "C33": {
  "status": "proved",
  "note": "closed layers (C66 shows why); false for LK (proved)"
 },
 "C34": {
  "status": "proved",
  "note": "hang characterised exactly when no length on the way is negative; witnesses for unknown fields, truncated tiles, negative lengths"
 },
 "C36": {
  "status": "proved",
  "note": "one axis for any arithmetic; both axes over exact arithmetic (an ordered field)"
 },
 "C37": {
  "status": "proved",
  "note": "exact arithmetic over any ordered field"
 },
 "C38": {
  "status": "proved",
  "note": "closedness and disappearance for any arithmetic; exactness inside the slab over an ordered field"
 },
 "C39": {
  "status": "proved",
  "note": "lines exactly (kept or dropped); multi-lines dropped, outside polygons panic, missed tiles get empty features"
 },
 "C40": {
  "status": "proved",
  "note": "distribution for every tile function and map order; labels right for one tile, wrong for several"
 },
 "C60": {
  "status": "proved",
  "note": "exact arithmetic over the reals; end zoom up to 60"
 },
 "C61": {
  "status": "proved",
  "note": "exact characterisation; wrong tile for tiny features proved"
 },
 "C20": {
  "status": "proved",
  "note": "odd pixel counts are refused with nil (proved); GetData is the transpose of the input (proved)"
 },
 "C21": {
  "status": "proved",
  "note": "exact arithmetic and float64, both as stated"
 },
 "C22": {
  "status": "proved",
  "note": "exact arithmetic and float64; the user's expectation is refuted by C22_false, C22_false_whole_metre"
 },
 "C23": {
  "status": "proved",
  "note": "the user's expectation is refuted by C23_same_size_ignored, C23_false"
 },
 "C43": {
  "status": "proved",
  "note": "SQLite and database/sql behaviour assumed as stated in Model/Mbtiles.lean"
 },
 "C44": {
  "status": "proved",
  "note": "every row order; version and attribution are lost (part of the theorem); the JSON of layer data is a parameter here and the real one in C95_metadata_table"
 },
 "C45": {
  "status": "proved",
  "note": "atomicity is refuted by C45_false"
 },
 "C46": {
  "status": "proved",
  "note": "every map order and byte string"
 },
 "C47": {
  "status": "proved",
  "note": "agreement of the two name tables is refuted; exact set proved"
 },
 "C50": {
  "status": "proved",
  "note": "proved for every rounding that is monotone and exact on small values (covers float64); decreasing values: witness proved"
 },
 "C51": {
  "status": "proved",
  "note": "any rounding satisfying Arith.Ok; hsl stops panic (proved)"
 },
 "C54": {
  "status": "proved",
  "note": "complete case analysis"
 },
 "C56": {
  "status": "proved",
  "note": "exact characterisation of successful parses; dropped operands and panics proved"
 },
 "C62": {
  "status": "proved",
  "note": "float64 rounding of the percentages and of alpha"
 },
 "C63": {
  "status": "proved",
  "note": "background layer without paint: panic proved"
 },
 "C57": {
  "status": "proved",
  "note": "ranges for exact and float64 arithmetic; greys for any rounding, pure hues exact; refutation for other colours by witness"
 },
 "C17": {
  "status": "proved",
  "note": ""
 },
 "C18": {
  "status": "proved",
  "note": "exact real arithmetic, sides from 2 to 10^10 (10^9 for the black-and-white form); smaller images panic (C18_tiny_images_panic)"
 },
 "C19": {
  "status": "proved",
  "note": "buffer at least 1, range within int32, drawings up to 10^8 pixels a side"
 },
 "C48": {
  "status": "proved",
  "note": "the transport and url.Parse are parameters (url.Parse: C102); net/url's query codec is modelled"
 },
 "C49": {
  "status": "proved",
  "note": ""
 },
 "C64": {
  "status": "proved",
  "note": "smooth step in exact arithmetic"
 },
 "C65": {
  "status": "proved",
  "note": "path.Join and the query codec are modelled from the Go library"
 },
 "C09": {
  "status": "proved",
  "note": "exact arithmetic over the reals, all map orders; full coverage of the segment is proved along rows (and columns under a proviso) and is false in general (C09_misses_corner, C09_polar_gap)"
 },
 "C10": {
  "status": "proved",
  "note": "closed rings; C10_open_false shows open lists fail"
 },
 "C11": {
  "status": "proved",
  "note": "exact arithmetic over the reals"
 },
 "C12": {
  "status": "proved",
  "note": "exact arithmetic over the reals; C12_misses_tile shows what a user would expect beyond it is false"
 },
 "C13": {
  "status": "proved",
  "note": "the MultiPoint defect is proved (C13_multiPoint_panics)"
 },
 "C35": {
  "status": "proved",
  "note": "exact arithmetic over the reals; out-of-range int32 conversions are left open"
 },
 "C58": {
  "status": "proved",
  "note": "reflect is modelled by kinds, tags and exportedness; reflectx follows all pointers (assumed)"
 },
 "C72": {
  "status": "proved",
  "note": "exact arithmetic over the reals; out-of-range int32 conversions are left open; the lost geometries are proved as theorems of their own"
 },
 "C73": {
  "status": "proved",
  "note": "pbf.Round of the external package go-pbf is a parameter"
 },
 "C74": {
  "status": "proved",
  "note": "exact arithmetic over the reals; EarthRadius at its initial value"
 },
 "C75": {
  "status": "proved",
  "note": "float64 rounding of every operation (no fused multiply-add, no subnormals); the accuracy of package math is a hypothesis (Spec/TileFloat), shown satisfiable"
 },
 "C76": {
  "status": "proved",
  "note": "float64 rounding of every operation (no fused multiply-add, no subnormals); the accuracy of package math is a hypothesis (Spec/MvtFloat), shown satisfiable; latitudes beyond 85.5 degrees not covered"
 },
 "C77": {
  "status": "proved",
  "note": "Go maps as entry lists in iteration order; NewFeatureFromGeometryData of go-geom taken to wrap its argument"
 },
 "C78": {
  "status": "proved",
  "note": "exact real arithmetic; bounding boxes from go-geom are inputs"
 },
 "C79": {
  "status": "proved",
  "note": "truetype (parsing, metrics, drawing) is a parameter; sizes are rationals"
 },
 "C80": {
  "status": "proved",
  "note": "positions within one tile of the tile for the error bound; same exceptions for geometries as C72"
 },
 "C81": {
  "status": "proved",
  "note": "strconv.ParseInt is modelled (Model/GoBase); the literals are specified separately (Spec/Numeral)"
 },
 "C82": {
  "status": "proved",
  "note": "strconv and strings are modelled (decimal floats, no inf/nan/hex); layer data codec is a parameter (the real one: C95_json_row); several json rows are decoded one over the other (C82_json_rows); NULL names and values: C82_null"
 },
 "C83": {
  "status": "proved",
  "note": "corners in exact arithmetic"
 },
 "C84": {
  "status": "proved",
  "note": "exact arithmetic; features found below zoom 30 (tiny ones are C61); the loss of parts is proved as a negative result"
 },
 "C85": {
  "status": "proved",
  "note": "own pixel ratio 0 divides by zero and is not modelled"
 },
 "C86": {
  "status": "proved",
  "note": "underflow, overflow, NaN and fused multiply-add are not modelled; which edges of a ring are closed in float64 is covered only by the box theorem"
 },
 "C87": {
  "status": "proved",
  "note": "points are values (no code writes a coordinate); memory left by a call that panics half way is not described"
 },
 "C88": {
  "status": "proved",
  "note": "math.Sqrt is any function with relative error 2^-53; fused multiply-add (arm64, ppc64, s390x) is not modelled"
 },
 "C89": {
  "status": "proved",
  "note": "lists of points (memory is C92); no NaN, infinities or subnormals"
 },
 "C90": {
  "status": "proved",
  "note": "fused multiply-add in Interpolate is not modelled; no NaN, infinities or subnormals; slanted segments in float64: no completeness claim (see C09 for exact arithmetic)"
 },
 "C91": {
  "status": "proved",
  "note": "no underflow, overflow, NaN; no fused multiply-add"
 },
 "C92": {
  "status": "proved",
  "note": "points are values; single goroutine; memory left by a call that panics half way is not described"
 },
 "C93": {
  "status": "proved",
  "note": "proto.Marshal/Unmarshal are modelled from the library (golang/protobuf 1.5.2 on google.golang.org/protobuf) for the three messages of glyph.pb.go; groups and nil list elements are not modelled."
 },
 "C94": {
  "status": "proved",
  "note": "encoding/json is modelled by combinators, one per kind of Go type, from its documentation and source: null, type errors that do not stop decoding, omitempty, case folding of names, decoding into existing values. JSON texts are modelled by their parsed form (numbers keep their spelling). The shortest decimal of a float64 is a parameter with strconv's promise that it reads back; printing all decimals is shown to keep it. time.Time: whole-minute offsets; dates are read as leniently as Go 1.20 and later do (one-digit hours, a comma before the fraction, offsets up to 24:60), and C94_time says exactly which texts are dates; escapes inside the text of a date are not modelled."
 },
 "C95": {
  "status": "proved",
  "note": "encoding/json's scanner, decoder, unquote and encoder are modelled on lists of characters (so bytes that are not UTF-8 are outside); nesting over 10000 is written but refused by the reader (C95_reads, the reason for the Shallow hypothesis). Number printing is a parameter that must print a JSON number which reads back (Prints); printing all decimals is shown to meet it."
 },
 "C96": {
  "status": "proved",
  "note": "Shapes are defined in Spec/DocRead without the codecs. Numbers in accepted documents are those of the JSON grammar (Spelled, which every text that is read guarantees: C96_texts has no such hypothesis). Date strings containing escapes and NaN are outside. Values of vector_layers and tilestats members are covered by C94's round trips only."
 },
 "C97": {
  "status": "proved",
  "note": "Texts are lists of characters (bytes that are not UTF-8 are not modelled); numbers are in the range of float64."
 },
 "C98": {
  "status": "proved",
  "note": "bytes are natural numbers; those above 255 count as ill-formed. Numbers beyond the range of float64 are not modelled. zlib and gzip are abstract (what was compressed decompresses to itself). The spelling of float64 is abstract (Prints: reads back, is a JSON number)."
 },
 "C99": {
  "status": "proved",
  "note": "url.Parse of next pages (the real one: C102) and the network are parameters"
 },
 "C100": {
  "status": "proved",
  "note": "names are sequences of Unicode characters; the images are in C59, C65"
 },
 "C101": {
  "status": "proved",
  "note": "memory exhaustion for large images and SavePNG's PNG codec are not modelled"
 },
 "C102": {
  "status": "proved",
  "note": "authorities with user information, brackets or percent signs are a parameter; fragments are not kept (they are not sent)"
 },
 "C103": {
  "status": "proved",
  "note": "a heap of property maps; geometries as in C36-C40, C60, C68, C84; bounding boxes of features are not modelled"
 },
 "C104": {
  "status": "proved",
  "note": "Every operation is rounded (no fused multiply-add, no overflow, subnormals). package math is a parameter: absolute error 2^-50 for sine and cosine, relative 2^-50 for square roots, absolute 2^-49 for Atan2 in the first quadrant; C104_nan shows such a library (with the correctly rounded values at 45 degrees) for which 45N 0E to 45S 180E is NaN. Symmetry assumes an odd sine, the zero distance sin 0 = sqrt 0 = Atan2(0, x) = 0. C74 is the exact version."
 }
}