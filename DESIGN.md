# Formal model of flywave/go-mapbox in Lean 4 — design

The model lives in `lean/Verif/`. For each package there is

* `Verif/Model/<X>.lean` — executable (or, for transcendental arithmetic, real-valued) definitions, one per Go
  function, each with a comment citing file and lines in /repo;
* `Verif/Spec/<X>.lean` (where the English property needs its own vocabulary) — a small specification independent of
  the model's helpers;
* `Verif/Proof/<X>.lean` — helper lemmas;
* `Verif/Props/<X>.lean` — the property theorems, named `Cnn_…`, each with an `example` (non-vacuity) beside it.

## Conventions

* Go `int`, `int64`: `Int` with explicit wrap functions `Go.i64`, `Go.i32`, `Go.u64`, `Go.u32`, `Go.u8` wherever the code can
  wrap and it matters. `float64`: one of three treatments, named at each definition:
  - **exact**: real numbers (ℝ) — used for transcendental code (Mercator, colour hue);
  - **field**: an arbitrary linearly ordered field, or an arbitrary linear order with arbitrary arithmetic operations when
    the theorem does not depend on arithmetic at all (then it also holds of float64 without NaN);
  - **F64**: round-to-nearest-even binary64 rounding on ℚ (no NaN/Inf/overflow), used where rounding is the point. `rnd64` is the same with
    gradual underflow, and `fits` the overflow test; both are used wherever JSON numbers are read, and are proved to be the nearest finite
    float64 of IEEE 754 and its range (Spec/Float64, Proof/Float64).
* Panics are values (`Except`/`Option`/`Res`), `recover` turns them into error results, as in the code.
* Loops that may not terminate take fuel; theorems of success say "for some fuel", and are accompanied by fuel
  monotonicity; non-termination is proved as "for every fuel, out of fuel".
* Map iteration order, unstable sort, crash points and call schedules are quantified over explicitly.
* External libraries that are not in /repo (go-pbf, go-geom, database/sql+SQLite, net/http, regexp, strconv, encoding/json,
  truetype) are modelled only by the behaviour this code relies on; each such assumption is listed in "Trusted base".

## Plan per property

| id | what is modelled | how it is proved |
|----|------------------|------------------|
| C01 | QuadKey/QuadkeyToTile/reverse on Int coordinates, digit strings | bit-wise induction on zoom |
| C02 | same + Children | append lemma, induction on depth |
| C03 | Children | arithmetic (omega) |
| C04 | Ul/Bounds over ℝ (arctan∘sinh) | monotonicity of arctan, sinh |
| C05 | Tile over ℝ (log, tan, cos, floor) | inverse-Mercator identity, floor characterisation |
| C06 | Center/Parent over ℝ | C05 applied to the centre point |
| C07 | Itoa, ParseInt (base 0), Split, Contains on character lists | decimal digit induction |
| C08 | IsEqual with 64-bit conversions | injectivity of wrap |
| C09 | GetTilesLine, BetweenTiles, FillVals, ProduceVals over ℝ with map orders as parameters | membership characterisation, strict monotonicity of tile rows; corner and polar gaps as witnesses |
| C10 | BoundingBoxPoints over an ordered field | fold invariant; open lists refuted |
| C11 | Pip over an ordered field / ℝ | crossing parity, edge-multiset invariance, insideness of convex regions |
| C12 | GetDif, GetTilesPolygon, RunPolygon over ℝ | list lemmas, monotonicity of Tile; a missed tile as witness |
| C13 | TileCover dispatch incl. the MultiPoint panic | fold = dedup of concatenation |
| C14 | GrowingPacker tree | region invariant on trees |
| C15 | GenerateSprite incl. arbitrary area-sorted permutation | C14 + no-failure invariant |
| C16 | backtracking matcher for the one regexp, String | matcher lemmas |
| C17 | difference/coverage | list counting |
| C18 | edt1d/edt over an ordered field (ℝ for the square root) | lower-envelope invariant |
| C19 | Glyphs/Glyph with the font as a parameter | list lemmas |
| C20 | NewDEMData as array writes | index arithmetic |
| C21 | Pack/Get with a rounding parameter: identity (exact) and F64 | floor arithmetic; error analysis with |rnd x - x| ≤ |x|/2^53 and exactness of /256, *256, fraction |
| C22 | TerrariumPacker with the same rounding parameter | floor arithmetic; the float version reduces to the exact one |
| C23 | BackfillBorder | direct; witness |
| C24 | paramEnc/DeltaDim/cmdEnc on 32-bit words | omega / BitVec reasoning |
| C25 | Cursor, MakeLine…, LoadGeometry command loop | invariant over command stream |
| C26 | MakePoint/MakeMultiPoint, LoadGeometry | command-stream analysis: number of points ≤ number of parameters in one-point commands; exact condition |
| C27 | AssertConvert/MakePolygonFloat on the rounded points, LoadGeometry; int32 areas | area lemmas + C25; for all coordinates whose int32 area products do not overflow (`C27_polygon_general`), 0..32767 in particular |
| C28 | assert_winding_order, MakePolygon(Float), MakeMultiPolygon, LoadGeometry | area algebra + C27's reader lemma; exact regrouping |
| C29 | GetTags/AddKey/AddValue | invariant over histories |
| C30 | go-pbf reader/writer, AddFeatureRaw, Flush, NewTile, Feature | prefix-parsing lemmas |
| C31 | ReadTile on tiles given as field lists (Spec/MvtWire) | loop invariant over the features of a layer; witness for the leak |
| C32 | heap of layers/features sharing a cursor | refinement to pure functions |
| C33 | Render | C66 applied to the rendered bytes; sublists and permutations of the layer map |
| C34 | all readers as fuel-indexed functions with outcomes ok/panic/hang | positions only move forward without negative lengths, so a loop that does not stop repeats a position (Proof/MvtHang); witnesses |
| C35 | SinglePoint, ConvertPoint, Project, Cursor's bounds over ℝ | Mercator identities, floor bounds |
| C36–C38 | clipLine/clipLines | invariants over the segment loop |
| C39 | clip/ClipTile/makefeature | number of pieces = number of stretches in the slab, by induction over the line; C37 twice; witnesses |
| C40 | PointClipAbout* with a shared property map | fold lemmas; witness |
| C41 | Simplify over an order with arbitrary distance | strong induction on range |
| C42 | Filter as a state machine | invariant over histories |
| C43 | tiles table as rows + unique index | refinement to a finite map |
| C44–C45 | metadata table, steps of UpdateMetadata | case analysis over row orders; crash prefixes |
| C46–C47 | patterns, tables | prefix disjointness; full table |
| C48–C49 | paging loop over an abstract server, regexp on Link | induction on the chain |
| C50–C51 | stops over ℝ | monotonicity of rpow/floor |
| C52–C53 | colour strings | character lemmas |
| C54–C55 | Validate, StyleSet | case analysis, fold invariant |
| C56 | filter JSON trees | structural induction |
| C57 | HSL/HSV/hue over ℝ | arccos bounds; witness |
| C58 | StructToFields, StructToProperties over a description of reflect values | list lemmas |
| C59 | GenerateSprite's drawing: image as a function of pixels | C14 disjointness + fold of overwrites |
| C60 | ClipFeature's loop over zooms over ℝ, every map order | invariant: every entry lies in its tile's box |
| C61 | GetFirstZoom over ℝ | induction over zooms; witness |
| C62 | hsl()/hsla() regexes and conversion with F64 percentages | regexp matcher lemmas, rounding lemmas |
| C63 | GetBackground, Parse's version test | case analysis |
| C64 | DrawGlyph/smoothstep over ℝ | monotonicity |
| C65 | client's URL building with path.Join and url.Values.Encode | string lemmas |

Rows for properties added later are at the end of the file.

## Trusted base

**Kernel and axioms.** Everything is accepted by Lean 4.33.0's kernel; Mathlib is imported module by module. No axioms are
added. Each of the manifest's theorems depends on at most `propext`, `Classical.choice` and `Quot.sound` (checked with
`#print axioms` over all of them; see `tools/axioms.py`, which prints the table theorem by theorem). `decide +kernel`
is used for concrete witnesses: it is evaluated by the kernel; nothing rests on compiled code.

**That the model is the code.** The models were written by reading /repo; nothing was compiled or run, so the
correspondence is by inspection, definition by definition, with the cited lines. Where a definition simplifies, its comment
says so.

**What is assumed about things that are not in /repo** (each is a definition or a parameter in the model, not an axiom):

| thing | where | assumption |
|---|---|---|
| go-pbf reader and writer | Model/Pbf.lean | single-byte tags, base-128 varints, length-prefixed strings, packed varints, settable `Pos`; a tag read at the end matches nothing. Value payloads (float, double, int) are a parameter with the law "decoding an encoded value gives it back" |
| go-geom | Model/MvtGeom, MvtClip, TileCover | geometries are their coordinate lists; `BoundingBox` is a parameter |
| math.Log, Tan, Cos, Atan, Sinh, Acos, Pow, Sqrt | TileGeo, MvtProject, StyleHsl, StyleZoom, Font | exact real functions, or parameters with stated laws; C50, C51, C57 state the laws needed of the rounded versions |
| float64 +,-,*,/ | Model/F64.lean | round to nearest even with unbounded exponent (no overflow, subnormals, NaN); no fused multiply-add. Reading JSON numbers has the real exponent range |
| SQLite and database/sql | Model/Mbtiles.lean | tables are lists of rows, the unique index makes `insert or replace` replace, a transaction takes effect at commit, rows come in any order |
| regexp | Model/Regex.lean | leftmost, Perl-like backtracking match for the few expressions used |
| strconv, strings, net/url query codec, path.Join | StyleColor, TileID, Client | modelled from the Go documentation on character lists |
| encoding/json | StyleFilter, Mbtiles, Client, Doc, JsonText | JSON values as trees; in Mbtiles the layer data is abstract with the law "what was encoded is decoded" (proved for the real type and the real text in C95); Doc models the library by combinators per Go kind; JsonText models its scanner and printer on lists of characters and is proved equal to the RFC's grammar; Utf8 and JsonBytes lift this to bytes, ill-formed ones included (C98) |
| net/http, servers | Model/Client.lean, ClientSession.lean | an arbitrary function from requests to responses |
| freetype/truetype, image | Model/Font.lean, Sprite.lean | a font is any function from runes to glyph outlines' metrics and masks; images are functions of pixels |
| reflect, reflectx | Model/TileJson.lean | kinds, tags, exportedness; pointers are followed |
| sort.Sort | Model/Sprite.lean | any permutation that is sorted (the sort is not stable) |
| map iteration | everywhere | any order (a parameter) |

**Numbers.** Tile geometry (C04–C06, C09–C13, C35, C36–C39, C60, C61), the distance transform (C18) and the glyph ramp (C64) are
proved for exact real (or ordered-field) arithmetic; C75 bounds what float64 rounding changes in C04–C06 (positions within
2^-41 of the map's width of a tile border may go either way). The raster codecs
(C21, C22), colours (C51, C57, C62) and stop functions (C50) are also proved for float64 rounding; C76 and C80 do so for the
vector-tile grid, C85 for sprite scaling, C86 for clipping, C88 for the distance field, C89 and C90 for point in polygon and
the tile cover, C104 for distances.

**Not modelled.** `geometry.go` (type declarations only); of `font/glyph.pb.go` `Reset`, `String`,
`Descriptor`, extensions and groups (the messages, their encoding and the getters are modelled, C93); font loading and rasterising; the PNG, TIFF and WebP codecs
(the pixels `LoadDEMDataWithStream`, `Save` and `DemEncode` hand to them are modelled, C67; lossless coding is assumed);
memory exhaustion (`LoadGeometry` allocates up to 2^29 points on the word of a command header before it reads them); data
races (no function in /repo starts a goroutine); the `fmt.Print` diagnostics.

## Findings

Places where the code does not do what its name or documentation promises; each is a theorem or a note of a theorem.

* mvt: `ToGeoJSON` and `ReadRawTile` recover from panics but return a nil error (unnamed results). A feature without geometry
  has geometry position 0 and `LoadGeometry` reads the start of the tile (C30_no_geometry_reads_tile_start). `ReadTile`
  carries id, type and geometry over from the previous feature (C31_leaks_id). `ReadRawTile` skips one byte too many after a
  geometry and loses the field that follows it (C31_raw_needs_geometry_last). Unknown fields in a layer, a
  truncated layer or feature and negative lengths make the readers loop for ever (C34). A layer that ends in a name, key or feature
  (as other encoders write it) swallows the next layer as a key or feature; sint_value is not zig-zag decoded (C66). If
  `NewTile` fails within a layer, `tile.Layers` may list the layer's name without a layer (C83_newTile_lists_name_of_broken_layer). At
  tile level only the tag of an unknown field is skipped, not its payload. `Render` writes tag 3 whatever the protocol (C33_lk_loses_layers). Feature ids of
  unsigned Go types panic in AddFeature. Multi-points of two or more points and the point (0,0) do not round-trip (C26).
  The integer polygon writers use the opposite orientation of the float ones (C28). Ring areas are computed in int32: in tiles of an extent above
  32767 a hole can come back as a polygon (C27_overflow). `SinglePoint` clamps coordinates beyond
  the map's top and bottom (C35_off_map).
* mvt clipping: multi-lines are dropped; re-entering lines too; polygons outside the tile panic; missed tiles get empty features
  (C39); tiny features are filed under 0/0/endzoom (C61); point features share one label (C40), multi-points lose their id and features without a property map panic (C103); `LintPolygon` writes into the caller's
  ring; `ClipFeature` never returns if no tile reaches the end zoom; a triangle or
  quadrilateral with the tile's bounding box becomes the whole tile, a clipped corner stays an open ring (C68).
* mbtiles: metadata of an overlay that is marshalled by value (not through a pointer) writes its type as a number and cannot be read
  back, `LayerType.MarshalJSON` having a pointer receiver (C94_metadata_by_value). Layer data whose values are nested over 10000 deep is
  written but makes the file's metadata unreadable (C95_reads).
* client: a date with an offset of a full day is read from an answer but cannot be written again (C94_time_day).
* client: a next-page address that net/url refuses ends the list as if it were complete; the token is sent to any host a page names; a relative
  address is not completed; two links in a header are read as one (C102).
* tile_cover: lines miss corner tiles and, near the poles, rows (C09); the distance of opposite points may be NaN (C104_nan); `BoundingBoxPoints` is wrong for open lists (C10); polygons
  miss tiles crossed without vertex or corner (C12); MultiPoint panics and MultiPolygon lacks the test for short rings (C13).
* raster: odd pixel counts give nil; `GetData` is transposed (C20); Terrarium's third byte is taken modulo 25 (C22); `BackfillBorder`'s
  size test is inverted (C23); an image of odd side loads as nil without an error, transparent pixels lose their height, `DemEncode`
  of a raster whose rectangle does not start at the origin loses cells (C67).
* tile_cover: an open ring with spare capacity is closed in the caller's memory; in a flat list it damages the next ring (C92).
* mbtiles: version and attribution are never stored (C44); `UpdateMetadata` deletes outside the transaction and drops the commit
  error, and a format beyond the table makes it panic after the deletion, losing the old metadata (C45); WebP is recognised only when its length is 192 (C46); the format tables disagree (C47); `NewDB` fails on an empty
  tileset; more than four bounds components panic. A grid that is not a JSON object makes `ReadGrid` panic (C70). An interrupted `CreateDB` ruins
  the file, the requested format is not kept, foreign files without index lose overwrites (C71).
* style: decreasing numeric stops interpolate in the wrong direction, values below the first stop are 0 (C50); hsl colour stops panic
  (C51); colour regexps are unanchored, alpha 0 is converted from -1 (C53); validation panics when a zoom is absent (C54);
  operands of other properties are dropped, null and [] panic (C56); hues do not survive the round trip (C57); a background layer
  without paint panics (C63); `Parse` never validates; properties of the wrong kind panic instead of giving an error, `light.color` can never be
  given, null colour stops panic when evaluated (C69).
* font: `CalcSDF` panics on 1×1 and 1×2 images (C18); a range labelled min-max excludes max (C19); `DrawGlyph` panics for a buffer below 3 and
  its ramp is 168..200 (C64).
* client: the greedy Link expression joins entries, any header containing "next" is followed, an endless chain never returns
  (C48, C49); ids are not escaped, so "../" leaves the user's directory, and a second access_token is appended (C65). The
  status of an answer is ignored: a 404 with a JSON object gives an empty TileJSON and no error (C99).
* tilejson: `StructToFields` panics on nil, `StructToProperties` on an unexported tagged field, a nil struct pointer has fields but no
  properties (C58).

## Properties added later

| id | what is modelled | how it is proved |
|----|------------------|------------------|
| C66 | NewTile/NewLayer/Feature on the bytes of any list of layer and feature fields (Spec/MvtWire) | induction over the fields with a loop invariant for each `key == tag` chain; the chains are entered in any state (Proof/MvtWire) |
| C67 | DemEncode, NewDEMData's image, Save, LoadDEMDataWithStream on images as functions of pixels (Model/RasterImage) | the nested pixel loops write a grid (`gridSet_spec`, induction over rows and columns); composed with C20 (border, index) and C21/C22 (packers) |
| C68 | the same clipping model as C36–C39, C60; the inside by ray crossing in Spec/MvtArea | crossing parity is additive over a path, unchanged by cutting a segment and by edges on the border line; invariant over the clipping loop (`clipLoop_parity`); the two ray directions agree off the edges (`meets_xy`); snapping the last point moves only points of a thin triangle (`triangle`); induction over the levels of ClipFeature with the margin shrinking by 2·Power7 per level |
| C69 | Parse on JSON values: encoding/json decoding of Style, Layer, Paint, Layout and the UnmarshalJSON methods of style/ (Model/StyleParse) | acceptance as an iff with shape predicates (Spec/StyleParse), members independent of each other (`fields_slot`), names matched up to case (`renamed`), repeated members decoded over what is there (`fields_last`, `C69_repeated_paint`), meaning by member lookup |
| C70 | ReadGrid and NewDB's detection on tables as lists; gzip/zlib and encoding/json as parameters with round-trip laws (Model/MbtilesFile) | the key loop as last-wins lookup, then the laws |
| C71 | CreateDB statement by statement with a stopping point, NewDB, StoreTile with or without the unique index (Model/MbtilesFile) | invariant over histories: a held tileset implies the unique index; without it there are no rows |
| C72 | WriteLayer, AddFeature and the `Make…Float` writers over exact reals, ToGeoJSON (Model/MvtLonLat); the grid and what a reader should get in Spec/MvtLonLat | SinglePoint is the nearest grid point (`C72_position`, `C72_near`); composition of the geometry round trips C25–C27 with the tile round trip C30 |
| C73 | ConvertGeometry, LoadGeometryScaled; `pbf.Round` (external package) is a parameter | case analysis on the geometry |
| C74 | Distance, CreateMap, Tile_Geohash over exact reals (Model/TileDist); the unit sphere in Spec/TileDist | half-angle identities give the angle between the unit vectors; metric laws from Mathlib's angle triangle inequality; C05 and C07 for the name |
| C75 | Ul, Bounds, Tile, Center, Parent with every operation rounded to float64 (Model/TileFloat); package math is a parameter, its accuracy a hypothesis (Spec/TileFloat) | forward error analysis: the inverse Gudermannian has slope at most 13 on the map, the Gudermannian at most 1; the centre is at least 1/26 tile from the edges; power-of-two divisions are exact |
| C76 | ConvertPoint, ConvertCursor, NewCursorExtent, SinglePoint, Project, ToGeoJSON with every operation rounded to float64 (Model/MvtFloat); package math as for C75, with exp | forward error analysis on top of C75's: northings within 12·2^-50 of the pole distance, edges within 160·2^-50; arctan∘exp has slope at most 1/2; integer parts of Project are exact; hence the rounded value is within 0.0075 of the exact one |
| C77 | NewFeature, NewFeatures, TrimMultiPolygon, getProto (Model/MvtDefaults); maps as entry lists in iteration order | last-put lookup for the copied properties; Strtile∘Tilestr (C07) for the correspondence |
| C78 | NewReduceConfig and runs of Filter (Model/MvtDefaults) over exact reals | C42 for the cells, `Tile` at zoom Z+8 as ⌊256·position⌋, injection into the 65536 cells |
| C79 | NewSDFBuilder, Init, Coverage (Model/FontBuilder) | induction over the options; C19 and C64 for the default buffer |
| C80 | C72's writer and reader, generic in the functions to and from the grid, with the float64 functions of C76 (Model/MvtTileFloat) | the generic round trip (Proof/MvtTileGeo), int32 results of SinglePoint for any math library, C76's error bounds per position |
| C81 | Strtile, TileFromString with the model of strconv.ParseInt(s, 0, 64) (Model/GoBase); integer literals in Spec/Numeral | the digit loop computes the value or overflows; the underscore check equals the grammar's; prefixes are unique |
| C82 | GetMetadata, the row switch and the string readers (Model/Mbtiles) on arbitrary rows; numerals and last rows in Spec/Mbtiles | parsers equal the grammars; fold over rows keeps the last value of each key; converse of the number grammar for malformed lists (Props/MbtilesBad); also IEEE-754 reading of the terrain header (C46) and media types (C47) |
| C83 | NewTile, ReadTile, ReadRawTile with their deferred recover (Model/MvtResult): the loop keeps the state before the panicking pass | prefix induction over the written layers with an arbitrary tail, and over the layers of any writer whose last layer ends with its version (C83_bytes_behind_layer_read_as_version shows why); ReadRawTile's loop simulates the bulk loop up to extents; corners by injectivity of the Mercator row |
| C84 | ClipFeature, ClipDownTile, clip on (multi-)lines (Model/MvtClip) over exact reals; part, steady line, bounding box in Spec/MvtClip | C37 twice per child, an exact description of the map after one level, induction over levels; steady lines by an order invariant of the clip loop |
| C85 | ScaleTo with float64 rounding (scaleDimF, Model/Sprite) | relative error of two roundings is smaller than the distance of a non-whole quotient to the integers; exact products for powers of two; C15 for the sheet |
| C86 | the generic clip model at the type Dbl of float64 numbers with rounded operations (Model/MvtClipFloat) | relative error of the five roundings of a crossing; simulation of the clip loop with vertices near each other, as branches only compare input coordinates; C37_line_exact; any-arithmetic invariant for vertices |
| C87 | a memory of arrays with Go slices (offset, length, capacity) and append (Model/MvtAlias) | induction over the rings with a frame condition for slices that share no cell |
| C88 | edt1d, edt and CalcSDF over rationals with F64.rnd after every operation (Model/FontFloat) | approximate lower-envelope invariant: the kept site is finite if one is, and best up to 2q·2^-25; rounded separators between finite and infinite sites lie outside [0,2^26] |
| C89 | `Model/TileCoverFloat` (crosses, ringCount, pip; every operation rounded to 53 bits) | error of the intersection bounded by monotony and relative error of rounding, then edge by edge equal to the exact model; counterexamples evaluated by the kernel |
| C90 | `Model/TileCoverFloat` (boundingBoxPoints, tilePolygon, getTilesPolygon, betweenTiles, getTilesLine over the float64 `tile`/`bounds` of `Model/TileFloat`) | list induction as for C09/C10; margins from C75's error bounds and C89; monotony of the rounded column; samples at `.0000001` from tile edges located by error bounds |
| C91 | the generic model of Simplify and Filter (Model/MvtReduce) at the type Dbl of float64 numbers (Model/MvtReduceFloat) | C41_simplify needs no law of arithmetic; forward error analysis of the projection parameter, weighted by the segment's length; recursive summation error |
| C92 | Pip to TileCover on a memory of arrays with slices (Model/TileCoverAlias, Model/MvtAlias), the arithmetic a parameter instantiated with the exact and the float64 models | an invariant of the memory preserved by each closing (three of them), then the list functions equal those of C11-C13 and C89-C90 |
| C93 | the three messages with their struct tags, the library's field loop, varints of up to ten bytes, unknown fields, required fields (Model/FontPbf); wire fields of any writer (Spec/FontPbf) | parsing is local (a field is read the same whatever follows), so reading is a fold over the written fields; an invariant of the fold for rewriting; sizes by induction |
| C94 | Model/Doc: codecs for string, int, uint, float64, pointers, slices, arrays, maps, structs (list of tagged fields), interface{}, time.Time (RFC 3339), LayerType; the repo's struct types as field lists | each combinator preserves round trips; decoding a struct equals decoding, field by field, the members with the field's name (induction on members and fields), whence order, unknown names, case, repetition and errors; RFC 3339 digit by digit |
| C95 | Model/JsonText: white space, numbers, strings with escapes and surrogate pairs, values, depth limit, Unmarshal (whole text) and Decoder.Decode (first value), Marshal with HTML escaping; the repo's readers and the metadata's json row on texts | the reader is sound and complete for the RFC grammar (Spec/JsonText, an inductive relation written without the reader) by mutual induction on the text and the derivation; determinism and cut texts from completeness; the writer by structural induction; documents by a depth and spelling invariant per codec (Proof/JsonDoc) and C94's round trips |
| C96 | Model/Doc and Model/JsonText; Spec/DocRead states the shapes, the value of a JSON number and what repeated members give | a combinator Accepts per codec (dec succeeds iff shape) composed along the struct types, C95 for the texts, foldl/array inductions for the values |
| C97 | Model/StyleText on top of Model/JsonText (texts to documents) and Model/StyleParse (documents to styles) | C95_first gives the document of a text; the number texts are related to values by the readers of C96 (num_read, parseInt_split); C69_accepts, C69_meaning and C69_parse do the rest |
| C98 | Model/Utf8: utf8.DecodeRune with its table, AppendRune; Model/JsonBytes: the readers and writers of C95-C97 on bytes, the map[string]interface{} codec of ReadGrid | decoding equals the relation of RFC 3629 by cases on the lead byte; cutting inside a character by replacing that character (Swap keeps a JSON text a JSON text); grids by following lookups through sorted maps |
| C99 | the four calls on the bytes of the answers, EscapedPath and String of net/url (Model/ClientSession), with the decoder of C98 | percent-encoding byte by byte over all 256 bytes, queries by C48/C65, the loop by C48_all_pages with the pages read by C95/C98 (Spec/ClientSession has RFC 3986 decoding and the chain of answers) |
| C100 | TextureSprite with its embedded pointer as a codec of Model/Doc (Model/SpriteJson), over the sheet of Model/Sprite | round trip of the struct from back_struct, of the text from C95's back_text_all; C100_index combines it with the invariant of C15 |
| C101 | DrawGlyph on the messages of Model/FontPbf with the wrap of uint32, the size limit of image.NewRGBA and float64 in alpha (Model/FontDraw) | the ramp for the 256 bytes by kernel evaluation of the rounding (the whole domain), the rest by list lemmas, composed with C19/C93 |
| C102 | url.Parse, setPath, EscapedPath, parseHost, String of net/url on bytes (Model/UrlParse), put in for the parameter of C48/C99 | Spec/UrlParse has the grammar and the chain of linked pages; parsing and printing part by part, byte facts over all 256 bytes; then C99_lists |
| C103 | features with a reference to a property map, and a heap of maps, through PointClipAboutTile, PointClipAboutZoom, makefeature, ClipTile, ClipFeature (Model/MvtClipProps) | the feature-level ClipFeature simulates the geometry-level one of Model/MvtClip (induction over entries and levels, orders carried over); points by C40 and an induction over the labels |
| C104 | Distance with every operation rounded, over a parameter MathLib (Model/TileDistFloat) | forward error analysis of the haversine (26 units of 2^-50), then a sine addition identity bounds the change of the angle: squared by the error, or by the error over the sine of twice the angle |
