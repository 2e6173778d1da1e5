#!/usr/bin/env python3
# Generates /verif/properties.jsonl (plain data; kept as a script only so that the list is easy to edit).
import json
P=[]
def p(title, statement, quantifier, why, anchors):
    P.append(dict(id="C%02d"%(len(P)+1), title=title, statement=statement, quantifier=quantifier, why_tests_cant=why, anchors=anchors))
T="tileid/tileid.go"
p("Quadkey round trip",
  "QuadkeyToTile(QuadKey(t)) == t for every tile t of zoom >= 1 with 0 <= X,Y < 2^Z, and QuadKey(QuadkeyToTile(s)) == s for every non-empty string s of digits 0..3 (up to 63 digits, the width of the coordinates). Zoom 0 is the one exception: its quadkey is empty and decodes to zoom 1.",
  "every tile id of every zoom; every quadkey string", "unbounded zooms; a test samples a few tiles",
  [T+":QuadKey",T+":QuadkeyToTile",T+":reverse"])
p("Quadkey structure",
  "QuadKey(t) has exactly Z digits, all in 0..3; the four Children of t have the quadkeys of t extended by 0, 1, 3, 2 in that order; so t is an ancestor of u exactly when QuadKey(t) is a prefix of QuadKey(u), and two different tiles never share a quadkey.",
  "every tile id of every zoom, every descendant depth","quantifies over all pairs of tiles and all depths",
  [T+":QuadKey",T+":Children"])
p("Children partition the next zoom level",
  "Children(t) returns four distinct tiles of zoom Z+1; a tile of zoom Z+1 in the world grid is a child of exactly one tile of the zoom-Z grid; different tiles have disjoint children.",
  "every tile of every zoom (no int64 overflow)","all tiles",[T+":Children"])
p("Children subdivide the bounding box",
  "The four boxes Bounds(child) share the parent's outer edges, meet at one common meridian and one common parallel, have positive size, and every (lon,lat) in the parent's box lies in exactly one of them (half-open).",
  "every tile, every point","real-valued domain",[T+":Bounds",T+":Ul",T+":Children"])
p("Tile is the inverse of Bounds",
  "For lat strictly between -90 and 90: Tile(lng,lat,z) == {x,y,z} if and only if the point lies in Bounds({x,y,z}), west and north edges included, east and south edges excluded. In particular every point of the Web-Mercator square maps to a tile 0 <= x,y < 2^z.",
  "every point and zoom","continuum of points",[T+":Tile",T+":Bounds",T+":Ul"])
p("Parent inverts Children",
  "Parent(c) == t for every child c of t, and c is one of Children(Parent(c)) for every c of zoom >= 1, although Parent goes through the lon/lat centre and Tile.",
  "every tile of every zoom >= 1","all tiles; composition of transcendental functions",[T+":Parent",T+":Center",T+":Tile",T+":Children"])
p("Textual tile ids round trip",
  "Strtile(Tilestr(t)) == t for every 64-bit tile id; TileFromString(Tilestr(t)) == t and TileFromString(TilestrFile(t)) == t when coordinates are non-negative. (Negative coordinates are misread by TileFromString because '-' is tried as the delimiter first.)",
  "every tile id","all 2^192 tile ids",[T+":Tilestr",T+":TilestrFile",T+":Strtile",T+":TileFromString"])
p("IsEqual is equality","IsEqual(a,b) is true exactly when all three fields agree, also for Z >= 2^63 where the int conversion wraps.",
  "every pair of tile ids","all pairs",[T+":IsEqual"])
V="tile_cover/tile_cover.go"; L="tile_cover/line_corner_case.go"
p("Line cover: exact vertices, no repeats",
  "GetTilesLine(line,z) never repeats a tile, returns only tiles of zoom z, starts with the tile of the first vertex and contains the tile of every vertex, whatever order the internal maps are iterated in; the set of tiles does not depend on that order. Every returned tile is that of a vertex or of a point on the line through two consecutive vertices within .0000001 of the segment; between two vertices of one tile row no tile the segment passes through is missing, and between two vertices whose tiles are two or more columns apart (or two or more rows, if the code looks there) no tile in which the segment has a stretch of more than .0000001. A user would expect this of every segment; that is false for segments cutting a corner between diagonal neighbours, and along a column towards the poles.",
  "every polyline, zoom and map iteration order","all inputs and all map orders",[V+":GetTilesLine",L+":BetweenTiles",L+":FillVals",L+":ProduceVals"])
p("Bounding box of a ring",
  "BoundingBoxPoints(ring) is the exact bounding box of a closed ring of lon/lat points. (False for open point lists, where the first point never updates the east/north side.)",
  "every closed ring","all rings",[V+":BoundingBoxPoints"])
p("Point in polygon",
  "Pip gives the same answer for a ring written closed or open, forwards or backwards, or started at another vertex, and the rings in any order; it is false for every point outside the bounding box of the rings; for a rectangle it is the half-open rectangle, for a triangle every inner point is in and every point outside the closed triangle is out, and every ring is the exclusive-or of the triangles of its fan.",
  "every polygon and point","all polygons",[V+":Pip"])
p("Polygon cover: sound range, no repeats",
  "GetTilesPolygon(polygon,z) never repeats a tile, returns only tiles of zoom z inside the tile range of the outer ring's bounding box, and contains the tile of every outer-ring vertex of a closed ring. Within that range it returns exactly the tiles that hold the box, have a corner in the polygon or hold a vertex; so a tile crossed by the polygon without any of these is missed.",
  "every polygon and zoom","all polygons",[V+":GetTilesPolygon",V+":TilePolygon",V+":RunPolygon",V+":GetDif"])
p("Tile cover of collections",
  "TileCover of a MultiLineString or MultiPolygon is the duplicate-free union, in first-seen order, of the covers of its parts; Point gives exactly the point's tile; degenerate polygons give nothing. MultiPoint is expected to give the points' tiles but reads the wrong field.",
  "every feature","all features",[V+":TileCover",V+":CreateMap"])
S="sprite/"
p("Sprite packing never overlaps",
  "GrowingPacker.Fit places blocks so that any two blocks occupy disjoint rectangles and every block lies inside the packed area with non-negative coordinates.",
  "every list of blocks for which packing succeeds","all block lists of any length",[S+"growing_packer.go:Fit",S+"growing_packer.go:growNode",S+"growing_packer.go:splitNode"])
p("Sprite generation always succeeds and fits",
  "GenerateSprite, for textures with distinct names and non-negative sizes, never fails in packing whichever order the unstable sort leaves equal areas in; every texture gets a position; the sheet is exactly as wide and high as its furthest sprite (1 if empty) and the sprites are disjoint inside it.",
  "every texture list, every permitted sort result","all lists and sort orders",[S+"sprite.go:GenerateSprite",S+"growing_packer.go:Fit"])
p("Style file names round trip",
  "ParseStyleFile(f.String()) == f for every StyleFile with a non-empty lower-case Type without '@', an alphanumeric lower-case extension and PixelRatio 1 or in 2..2^63-1. A name is accepted exactly when some character other than '@', an optional @digits x and a dot with letters or digits end it; it means its reading from the earliest place, in lower case, the number as ratio (1 if it is no int64). An accepted name, unless of ratio 0, prints as a name of the same meaning. UnmarshalText of a bad text keeps the old value.",
  "every such StyleFile; every ASCII name","all names",[S+"style_file.go:ParseStyleFile",S+"style_file.go:String"])
F="font/"
p("Language coverage accounting",
  "For each language Count is the number of exemplar characters contained in at least one of the fonts, Count == sum of Coverages <= Total, a character is credited to the first font that has it, Count does not depend on the order of the fonts and never falls when a font is added.",
  "every language table and list of fonts","all tables",[F+"cover.go:coverage",F+"cover.go:difference"])
p("Signed distance field is the exact Euclidean distance",
  "Over exact arithmetic the distance transform returns at each pixel sqrt(min over pixels of squared distance + seed cost), for every image with both sides >= 2.",
  "every grid size and every seed grid","lower-envelope algorithm; all images",[F+"sdf_builder.go:edt",F+"sdf_builder.go:edt1d",F+"sdf_builder.go:CalcSDF"])
p("Glyph range output",
  "Glyphs(min,max) returns glyphs with strictly increasing ids in [min,max), never id 0, exactly those the font can draw with non-zero size, each with a bitmap of (width+2*buffer)*(height+2*buffer) bytes.",
  "every font and range","all fonts/ranges",[F+"sdf_builder.go:Glyphs",F+"sdf_builder.go:Glyph",F+"utils.go:DrawGlyph"])
R="raster/raster.go"
p("DEM border replication",
  "NewDEMData on a dim*dim tile (even count) stores pixel (x,y) at its place and fills the one-pixel border by clamping coordinates to the nearest inside pixel, corners included.",
  "every tile size and content","all sizes",[R+":NewDEMData",R+":idx",R+":GetData"])
p("Mapbox terrain-RGB precision",
  "In exact arithmetic decoding MapboxPacker.Pack(h) gives a height at most h and less than 0.1 m below it, for every h in [-10000, 1667721.6), and packing a decoded opaque pixel gives that pixel back. With float64 rounding the first still holds up to 10^-7 m for h <= 1667721.5, and packing a decoded opaque pixel gives that pixel or the code 0.1 m below it, never anything else; both deviations do occur.",
  "every height; every pixel","continuum of heights, 2^24 pixels",[R+":MapboxPacker.Pack",R+":DEMData.Get"])
p("Terrarium precision",
  "A user expects decoding TerrariumPacker.Pack(h) to give h within 1/256 m; this is false because the third byte is reduced modulo 25. What holds for every h in [-32768,32768): the decoded height is above h - 1 and at most h + 24/256, and it is within 1/256 m exactly when the residue happens to agree (condition stated in whole metres and 1/256 fractions). With float64 rounding the same bounds hold up to 10^-10 m for h <= 32767; just below 32768 the bytes wrap to the bottom of the range.",
  "every height","continuum of heights",[R+":TerrariumPacker.Pack",R+":DEMData.Get"])
p("Backfilling a neighbour's border",
  "BackfillBorder(neighbour,dx,dy) never changes the tile's own pixels, size or stride. A user expects it to copy the adjacent edge of a same-size neighbour into this tile's border; this is false, the size test is inverted and a same-size neighbour is ignored in every direction. The copying loop behind the test does copy exactly the facing edge or corner of a neighbour with the same stride.",
  "every tile pair and direction","all tiles",[R+":BackfillBorder"])
W="mvt/write_geometry.go"; RF="mvt/read_feature_lazy.go"
p("Zig-zag and command integers",
  "DeltaDim(int(uint32(paramEnc(v)))) == v for every int32 v; a command integer carries id 1/2/7 in its low three bits and any count below 2^29 above them.",
  "all 2^32 values; all counts","2^32 values",[W+":paramEnc",W+":cmdEnc",RF+":DeltaDim"])
p("Line geometry round trip",
  "Encoding a (multi-)line of tile coordinates with MakeLine/MakeMultiLine and decoding with LoadGeometry gives the same lines with only consecutive duplicate points removed, LineString for one line and MultiLineString for several. This holds for int32 coordinates exactly when every step, from (0,0) on and from line to line, changes each coordinate by an int32; otherwise the points come back off by multiples of 2^32.",
  "every list of polylines","all lists and lengths",[W+":MakeLine",W+":MakeMultiLine",W+":LinePoint",W+":MovePoint",RF+":LoadGeometry"])
p("Point geometry round trip",
  "A point encoded with MakePoint, or a one-point MakeMultiPoint, comes back unchanged from LoadGeometry exactly when it is not (0,0); MakeMultiPoint of two or more points never comes back: reading fails or gives fewer points. The Mapbox-standard multi-point encoding is rejected too.",
  "every point list","all points",[W+":MakePoint",W+":MakeMultiPoint",RF+":LoadGeometry"])
p("Polygon geometry round trip",
  "A polygon with holes, or a list of such polygons, written through the float writer (rings forced to one orientation, holes to the other) decodes to the same polygons: same grouping of rings, each ring the same closed point sequence up to direction and consecutive duplicates. This holds for all tile coordinates whose area products fit an int32, in particular for coordinates from 0 to 32767 (clamped features of any extent up to that). (Beyond, areas overflow: of a square of side 40000 with a hole, the outer ring comes back reversed and the hole as a second polygon.)",
  "every multipolygon with non-degenerate outer rings","all polygons",[W+":MakePolygonFloat",W+":AssertConvert",RF+":LoadGeometry",RF+":SignedArea"])
p("Winding order of the writers and what the reader makes of it",
  "A user expects MakePolygon and MakePolygonFloat to write rings in one orientation; they write every ring in opposite orientations. Consequently: a one-ring polygon written by MakePolygon reads back as itself; one with holes reads back as that many separate one-ring polygons; for MakeMultiPolygon the reader groups the rings by cutting before every ring that was a hole, so separate polygons merge and holes split off (exact regrouping proved for every list of polygons).",
  "every polygon","all polygons",[W+":assert_winding_order",W+":AssertConvert",W+":SignedArea2",RF+":SignedArea"])
WL="mvt/write_layer.go"; WF="mvt/write_feature.go"
p("Key/value dictionary",
  "After any sequence of AddFeature/AddFeatureRaw/GetTags calls, every tag pair handed out so far still resolves, in the written key and value tables, to the property it was made for; equal keys and equal values share one entry; indices are dense.",
  "every history of features and every property iteration order","all histories",[WL+":GetTags",WL+":AddKey",WL+":AddValue"])
p("Layer write/read round trip",
  "NewTile(layer bytes) for a layer written by this package returns one layer with the same name, keys, values, extent, version and number of features, and Feature() returns for each feature its id, type, properties and raw geometry, in order. (A feature added without a geometry, or with a collection, keeps its id and properties; its geometry is read from the start of the tile.)",
  "every layer content, both tag schemes","all contents",[WL+":WriteLayer",WL+":Flush",WF+":AddFeatureRaw","mvt/read_layer.go:NewLayer",RF+":Feature",RF+":LoadGeometryRaw"])
p("Lazy and bulk readers agree",
  "On every tile of well-formed layers, whoever wrote it, ReadTile returns the features in order with the properties that Feature() gives plus the property layer, the layer's extent, and the id, type and geometry of the last feature of the layer up to this one that has one: a feature that has its own is returned as Feature() + ToGeoJSON return it, one that lacks it inherits its predecessor's (a defect). An id of 0 is returned as none. ReadRawTile reads the same features (before projection) if in every feature the geometry is the last field; otherwise it loses fields that follow the geometry (a defect).",
  "every tile","all tiles",["mvt/read_tile.go:ReadTile","mvt/read_tile.go:NewTile",RF+":Feature",RF+":ToGeoJSON"])
p("Lazy reading is independent of call interleaving",
  "Feature(), LoadGeometry() and LoadGeometryRaw() calls on the layers and features of one tile, which share one buffer cursor, return the same results in every interleaving; Next/Feature visits each feature exactly once and Reset starts over.",
  "every call schedule","all interleavings",[RF+":Feature",RF+":LoadGeometry",RF+":LoadGeometryRaw","mvt/read_layer.go:Next","mvt/read_layer.go:Reset"])
p("Render round trip",
  "For every tile of well-formed layers that each end in a value, extent or version, whoever wrote it, NewTile(tile.Render()) has the same layers as tile, for every order the layer map is iterated in, also when repeated names left only some of the layers in the map (Mapbox tag scheme; with the LK scheme Render writes tags its own reader skips and the layers are lost).",
  "every tile of closed layers, every map order","all tiles and orders",["mvt/read_tile.go:Render","mvt/read_tile.go:NewTile"])
p("When the readers return",
  "NewTile, ReadTile, Feature and LoadGeometry turn panics into errors, and on every byte string in which no length on the way is negative they loop for ever exactly when they reach a layer in which an unknown field, or the end of the buffer, comes before the layer's end, or (ReadTile, Feature) a feature that runs past the end of the buffer; otherwise they return. LoadGeometry always returns. (So a truncated tile or an unknown field hangs the readers; a negative length can too.)",
  "every byte string","all byte strings; termination",["mvt/read_tile.go:NewTile","mvt/read_layer.go:NewLayer",RF+":LoadGeometry"])
p("Tile coordinates of a lon/lat point",
  "SinglePoint clamps to [0,extent] when asked; over exact arithmetic it gives a nearest grid coordinate (from 0 to the extent for a point of the tile), and projecting an integer grid coordinate to lon/lat and back returns it, for every tile and extent, unless the coordinate is beyond the top or bottom of the map, where it is clamped.",
  "every tile, extent, grid coordinate","all tiles and coordinates",[W+":SinglePoint",W+":ConvertPoint",W+":ConvertCursor",RF+":Project"])
CL="mvt/clip.go"
p("Clipping stays in the slab","Every point of the result of clipping a line or ring against [k1,k2] on an axis has that coordinate in [k1,k2], whatever the arithmetic used for the other coordinate; after clipping both axes all points lie in the tile box.",
  "every geometry and slab","all geometries",[CL+":clipLine",CL+":Intersect",CL+":ClipTile"])
p("Clipping a line is exact intersection","Over exact arithmetic the set of points on the clipped polylines equals the set of points of the input polyline inside the slab.",
  "every polyline and slab","all polylines; infinite point sets",[CL+":clipLine"])
p("Clipped rings stay closed","Clipping a closed ring yields at most one ring; if it has at least four points it is closed; a ring inside the slab comes back unchanged and one outside disappears.",
  "every ring and slab","all rings",[CL+":clipLine",CL+":clipLines",CL+":LintPolygon"])
p("Clipping a line to a tile","ClipTile of a LineString is exactly the part of the line inside the tile when the line has one stretch in the tile's longitude range (for example when it never leaves that range), and is empty when it has none or several, even if the line meets the tile (a defect). A MultiLineString is always dropped, a polygon beside the tile panics, and ClipFeature makes features without geometry for child tiles a line misses.",
  "every feature and tile","all features",[CL+":clip",CL+":ClipTile",CL+":makefeature",CL+":IsEmpty"])
p("Point clipping assigns each point to one tile","PointClipAboutZoom on a MultiPoint distributes every point to exactly the tile that Tile gives it, in order, no point lost or repeated; PointClipAboutTile keeps exactly the points of the tile. The TILEID label is right when all points lie in one tile; when they lie in two or more, some returned feature carries another tile's label, because the property map is shared.",
  "every multipoint and zoom, every map order","all point lists and map orders",[CL+":PointClipAboutZoom",CL+":PointClipAboutTile"])
p("Simplification guarantee","Simplify only writes importance slots of interior points; every point it leaves unmarked is within the tolerance of the segment joining its neighbouring marked points (or end points); the importance of a marked point is above the tolerance and is its squared distance from the segment joining two marked or end points around it, the greatest of all points between them; it terminates and never indexes out of range.",
  "every coordinate array, range and tolerance","all inputs; recursion",["mvt/simplify.go:Simplify","mvt/simplify.go:GetSqSegDist"])
p("Point thinning","Over any sequence of Filter calls with one config, at most one point feature per grid cell is kept, the first one of each cell is always kept, and once kept a cell never reopens; disabled filter keeps everything.",
  "every history of features","all histories",["mvt/feature_reduce.go:Filter"])
MB="mbtiles/mbtiles.go"; MD="mbtiles/metadata.go"
p("Tile store is a map","After any sequence of StoreTile calls ReadTile(z,x,y) returns the data of the last successful StoreTile with exactly these coordinates, nil without error if there was none; there is never more than one row per coordinate.",
  "every history of stores and reads","all histories",[MB+":StoreTile",MB+":ReadTile",MB+":CreateDB"])
p("Metadata round trip","GetMetadata after UpdateMetadata(m) returns m's text fields, zooms (when MaxZoom > 0), type, format, tile size and resolution factor, bounds and centre to 8 decimals, for every row order, and nothing of earlier metadata. (Version and attribution are false: they are never written.)",
  "every metadata value and previous content","all metadata, all row orders",[MD+":ToMap",MB+":GetMetadata",MB+":UpdateMetadata"])
p("Metadata update survives a crash","If the process stops at any point of UpdateMetadata the stored metadata is the old one, empty, or the new one, and nothing else; all three are reachable (a user would expect empty never to be, but the old rows are deleted before the transaction starts). An undisturbed run stores the new metadata; an error leaves old or empty; a failed commit is reported as success. Metadata whose format lies beyond the format table make it panic after the deletion, so the old metadata are lost.",
  "every crash point","crash points",[MB+":UpdateMetadata"])
p("Tile format sniffing is deterministic","detectTileFormat gives the same answer in every map iteration order, and recognises exactly the listed magic prefixes.",
  "every byte string and map order","all byte strings and orders",[MB+":detectTileFormat"])
p("Format and layer-type tables","StringToTileFormat(TileFormatToString(f)) == f for every format and stringToLayerType(layerTypeToString(t)) == t; unknown names give UNKNOWN, out-of-range formats panic. A user also expects the stored name to be the one TileFormat.String gives; it is exactly for UNKNOWN, LERC, TIFF, TERRAIN and TIF; PNG is stored as jpg, JPG as webp, PBF as gzib, WEBP as zlib, and the names other programs write are misread accordingly.",
  "every format","the whole table through both directions",[MD+":TileFormatToString",MD+":StringToTileFormat",MB+":TileFormat.String"])
CC="client/client.go"
p("Pagination returns every page once","ListStyles/ListTilesets return the concatenation, in order, of all pages reached by following next links, or an error and nothing if any page fails; every request carries the access token.",
  "every server behaviour with a finite chain","all page chains",[CC+":ListStyles",CC+":ListTilesets",CC+":do",CC+":nextPageURL"])
p("Next-page link parsing","nextPageURL of a Link header with one <url>; rel=\"next\" entry is url, and nothing when the header has no next. (With several entries the greedy pattern joins them; without angle brackets it panics.)",
  "every Link header","all headers",[CC+":nextPageURL"])
ST="style/"
p("Numeric zoom functions","GetValueAtZoomLevel returns the stop's value at each stop, the last value beyond the last stop and 0 below the first; between two stops it is the lower value plus the eased fraction of the absolute difference, so for increasing zooms and non-decreasing values it is monotone and between the neighbouring stops, while for decreasing values it leaves the interval.",
  "every stop list, base and zoom","continuum of zooms",[ST+"numeric_function.go:GetValueAtZoomLevel",ST+"numeric_function.go:getNumericValueBetweenStops",ST+"function.go:getExponentialPercentage"])
p("Colour zoom functions","GetValueAtZoomLevel of colour stops returns the stop's colour at each stop and beyond the last, nothing below the first, and between stops every channel lies between the two stops' channels, so the conversion to a byte never wraps.",
  "every colour stop list, base and zoom","continuum of zooms",[ST+"color_function.go:GetValueAtZoomLevel",ST+"function.go:getValueThroughStop"])
p("Hex colours","#rrggbb parses to exactly its three bytes with opaque alpha for all 2^24 colours in either letter case, #rgb means #rrggbb, and every other '#' string is an error.",
  "every string starting with #","all strings",[ST+"colors.go:getHexColor",ST+"colors.go:strToColor"])
p("rgb()/rgba() colours","rgb(r,g,b) and rgba(r,g,b,a) with any spacing parse to their bytes; components above 255 are errors; alpha 1 is opaque.",
  "every component triple and spacing","all strings of the grammar",[ST+"colors.go:getRGBColor",ST+"colors.go:getRGBAColor"])
p("Layer validation","With both zooms given, Layer.Validate succeeds exactly when 0 <= minzoom <= maxzoom <= 24 and otherwise returns an error. With one or both absent it never succeeds: it panics, or returns an error if a maxzoom alone is outside 0..24.",
  "every pair of optional zooms","all zooms",[ST+"layer.go:Validate"])
p("Style set","NewStyleSet succeeds exactly when the ids are distinct and contain the default id; then GetStyleByID returns the style with that id, GetDefaultStyle the default one and GetAllStyleIDs each id once.",
  "every list of styles","all lists",[ST+"types.go",ST+"styling.go:NewStyleSet",ST+"style.go"])
p("Filter parsing preserves structure","Parsing a filter array succeeds with filter f exactly when the JSON has the shape of f: operator kept, sub-filters nested in order to any depth, and for class/subclass/$type comparisons all operands kept, a non-string operand being an error. Operands of every other property are dropped, and null, [] and a second element that is neither string nor array panic. On an error the container keeps its filter; a comparison unmarshalled directly is left with the new operator and the old category. A number beyond float64 anywhere in a filter is an error, even among dropped operands.",
  "every nested filter","unbounded nesting",[ST+"filter.go:unmarshalFilter",ST+"filter.go:ComparativeFilter.UnmarshalJSON"])
p("HSL/HSV conversion ranges","NewHSLFromRGB/NewHSVFromRGB always give H in [0,360], S and L/V in [0,1]; RGBA of a valid HSL colour is in 0..65535 with equal high and low bytes; converting an RGB colour to HSL and back returns it for every grey and every colour with two equal channels, but not for every colour ((255,65,0) does not come back), since the hue formula is not the one inverted. NewHSVColor and NewHSLColor accept exactly components in range, or NaN.",
  "all 2^24 colours; all HSL colours","continuum",[ST+"colorextra/hsl.go",ST+"colorextra/hsv.go",ST+"colorextra/hue.go"])
p("Struct tags to fields and properties","StructToFields and StructToProperties of a struct agree on names for scalar fields, take exactly the tagged fields, and give each field the type of its kind; non-structs give nil.",
  "every struct type","all struct types",["tilejson/utils.go:StructToFields","tilejson/utils.go:StructToProperties"])
p("Sprite sheet pixels","In the sheet a sprite generator writes, every sprite's pixels appear unchanged in the rectangle its JSON entry names, whatever order the map of sprites is iterated in.",
  "every set of sprites and map order","all sprite sets and orders",["sprite/sprite.go:GenerateSprite"])
CL="mvt/clip.go"
p("Clipped features stay in their tiles","Every geometry ClipFeature returns under a tile lies inside that tile's bounding box, in every iteration order of its maps and with or without parents; only the unclipped input under its first tile is exempt.",
  "every geometry, end zoom and map order","all geometries, depths and orders",[CL+":ClipFeature",CL+":ClipDownTile",CL+":makefeature"])
p("Start tile of a feature","GetFirstZoom returns the deepest zoom (at most 28) at which the four corners of the box lie in one tile, and that tile; if they still share a tile at zoom 29 the answer is the fixed tile 0/0/30 wherever the box is, and ClipFeature then files the feature under 0/0/30 and 0/0/endzoom.",
  "every bounding box","continuum of boxes",[CL+":GetFirstZoom",CL+":ClipFeature"])
p("hsl()/hsla() colours","hsl(h,s%,l%) and hsla(h,s%,l%,a) strings with any spacing parse to the HSL colour with these components when hue is at most 360 and the percentages at most 100, and are errors otherwise; they never panic.",
  "every component triple and spacing","all strings of the grammar",[ST+"colors.go:getHSLColor",ST+"colors.go:getHSLAColor",ST+"colorextra/hsl.go:NewHSLColor"])
p("Background colour and style version","The background colour of a parsed style is white when its first layer does not have id \"background\", otherwise that layer's background-color at zoom 0; Validate accepts exactly version 8. (A background layer without paint panics in Parse.)",
  "every style","all layer lists",[ST+"style.go:calculateBackgroundColor",ST+"style.go:Validate"])
FO="font/"
p("Drawing a glyph","DrawGlyph of a glyph built with the default buffer 3 never panics and, without smoothstep, reproduces the bitmap as alphas; with smoothstep each alpha is 0 up to 168, the byte itself from 200 on, monotone between and never above the byte. (The ramp is 168..200, not the 136..168 its arguments name; a buffer below 3 panics.)",
  "every glyph","all bitmaps",[FO+"utils.go:DrawGlyph",FO+"utils.go:alpha",FO+"sdf_builder.go:Glyph"])
p("Request addresses of the API client","For a user name and style id that are plain path segments ListStyles, GetStyle, ListTilesets and GetTileJSON ask for styles/v1/user, styles/v1/user/id[/draft], tilesets/v1/user and v4/ids.json, with exactly the query parameters that were given. (Ids are not escaped: one with ../ leaves the user's directory.)",
  "every user, id list and parameter set","all strings",["client/client.go:ListStyles","client/client.go:GetStyle","client/client.go:ListTilesets","client/client.go:GetTileJSON"])
p("Tiles of other writers","NewTile and Feature read every tile whose layers and features are well-formed messages, whoever wrote it: fields in any order, missing or repeated (the last of a repeated single field counts; repeated keys, values and features accumulate in order). Two exceptions: a layer followed by another one must not end in a name, key or feature (otherwise the bytes of the next layer are read as a key or feature of this one), and a sint_value is returned without zig-zag decoding.",
  "every sequence of layer messages, every field order, both tag schemes","all field orders and multiplicities",["mvt/read_tile.go:NewTile","mvt/read_layer.go:NewLayer",RF+":Feature"])
p("Elevation images","The image DemEncode makes of a raster at the origin, loaded again, gives back every height within 0.1 m (Mapbox) or 1 m (Terrarium), the border one cell wide repeating the nearest cell. Save followed by Load of a DEM of opaque pixels gives the same DEM. Loading never panics; it fails exactly for images that are not square. (For an odd side it returns a nil DEM without an error; transparent pixels lose their height; a raster not at the origin loses cells.)",
  "every raster, image and DEM","all rasters and images",["raster/raster.go:LoadDEMDataWithStream","raster/raster.go:Save","raster/raster.go:DemEncode","raster/raster.go:NewDEMData"])
p("Clipping keeps the inside of polygons","By the even-odd rule, the polygon ClipTile returns covers a point of the tile exactly if the input polygon (or multi-polygon, with holes, any self-intersections) does, and ClipFeature loses no part: every point covered by the polygon is covered by the geometry stored for its end-zoom tile; points within a small multiple of Power7 of an edge or tile border are exempt. ClipFeature does not panic and terminates for such polygons. (ClipFeature may add area: a triangle or quadrilateral whose bounding box is the tile's is taken for the whole tile. A clipped triangle corner is left as an open ring of three points.)",
  "every polygon, tile, end zoom, map order and point","continuum of polygons and points",[CL+":ClipTile",CL+":clip",CL+":ClipDownTile",CL+":ClipFeature",CL+":LintPolygon"])
p("Parsing a style","Parse accepts a style document exactly when every member has the shape its field needs (and the background colour can be computed); then id, version, the layers in order with ids, zooms and filter, and every paint and layout property have the value written in the document: a number or colour is constant, a function has the stops and base in the order written, a missing or null property is absent. (A property of the wrong kind - boolean, array, a string for a number - and a stop without two entries panic instead of giving an error; any value for the light's colour is an error; a null colour stop parses and panics when evaluated; a number beyond float64 is an error wherever it is looked at, also inside metadata and unused properties, but not under an unknown name.)",
  "every JSON document","all documents",[ST+"style.go:Parse",ST+"style.go:calculateBackgroundColor",ST+"numeric_function.go:UnmarshalJSON",ST+"numeric_stop_type.go:UnmarshalJSON",ST+"colors.go:UnmarshalJSON",ST+"color_function.go:UnmarshalJSON",ST+"layer.go:Layer",ST+"paint.go:Paint",ST+"layout.go:Layout"])
MB="mbtiles/mbtiles.go"
p("UTF grids","ReadGrid gives, for a tile with a grid and key rows, a grid compressed like the tileset's, with the members of the stored grid except data, which maps every key name to the JSON of its row; a grid without key rows as stored; nil for a tile without grid; an error for a tileset without UTF grids. NewDB finds UTF grids exactly when all five tables exist and there is a sample. (A grid that is not a JSON object panics; rows that are not JSON objects count as empty ones.)",
  "every tileset, tile and key table","all tables and grids",[MB+":ReadGrid",MB+":NewDB"])
p("Life of a tileset file","In every history of a file - attempts to create and open it, stores, metadata updates, failures and crashes at any point - a stored tile stays readable with exactly its data until the next successful store at its coordinates, CreateDB succeeds at most once, and a file whose tiles all are of one recognisable kind opens as that kind. (A creation interrupted after its first statement, or a tileset closed without a tile, leaves a file that neither CreateDB nor NewDB ever accepts; the format given to CreateDB is not kept; its metadata error is dropped; in a foreign file without unique index overwriting is lost.)",
  "every history of calls and crashes","all histories and crash points",[MB+":CreateDB",MB+":NewDB",MB+":StoreTile",MB+":ReadTile",MB+":UpdateMetadata"])
WG="mvt/write_geometry.go"
p("Lon/lat features written to a tile and read back","Write layers of lon/lat features with WriteLayer, concatenate them, read the tile and convert each feature with ToGeoJSON for its tile: the layers and features come back in order with name, extent, id and properties, and every geometry comes back with the same parts and each position moved to the nearest grid point, that is by at most half a grid cell in each direction (with ExtentBool first moved into the tile, where it then stays); consecutive positions on one grid point merge, rings are closed, outer rings run clockwise and holes the other way. ReadTile, if no feature without id (or with id 0) follows one of its layer with an id, returns the same features with the property layer set to the layer's name, and ReadRawTile the same with geometries on the grid. (A point within half a cell of the north-west corner and multi-points of two or more positions are lost, flat outer rings merge polygons, empty lines and rings panic.)",
  "every tile, extent, configuration, layer list and geometry","continuum of positions, all geometries and layer lists",["mvt/write_layer.go:WriteLayer","mvt/write_layer.go:NewLayerConfig","mvt/write_feature.go:AddFeature",WG+":MakeLineFloat",WG+":MakeMultiLineFloat",WG+":MakePointFloat",WG+":MakePolygonFloat",WG+":SinglePoint",RF+":ToGeoJSON",RF+":LoadGeometry"])
p("Scaled geometry","LoadGeometryScaled(dim) and ConvertGeometry keep the kind of a geometry and the number and order of its parts and positions and replace every coordinate by the rounded quotient by dim; a nil geometry gives an empty one, and the error of LoadGeometry is passed on.",
  "every geometry and dim","all geometries",[RF+":LoadGeometryScaled",RF+":ConvertGeometry"])
p("Distances and names of positions","Distance gives the length of the great-circle arc between two positions on a sphere of 3963.190592 miles radius, for any coordinates: symmetric, 0 exactly for the same point, at most half the circumference, never longer than a detour. CreateMap holds exactly the given tiles, each once. Tile_Geohash of a position on the map is a text that Strtile reads back as the tile containing the position.",
  "every pair of positions, tile list and zoom","continuum of positions",["tile_cover/line_corner_case.go:Distance","tile_cover/tile_cover.go:CreateMap","tileid/tileid.go:Tile_Geohash"])
p("Tiles and boxes in float64","In float64 arithmetic, with functions of package math accurate to 2^-50: Tile gives the tile a position lies in unless the position is within 2^-41 of the map's width of an edge; Bounds is within 2e-12 degrees of the exact box; up to zoom 35 boxes have positive size, the tile of a tile's centre is the tile and Parent inverts Children. Whatever the math functions compute, boxes of neighbours and of children meet bit for bit, without gaps or overlaps (zoom up to 49). Under the same conditions the text of Tile_Geohash reads back as the tile the position lies in, and PolygonTile is one closed ring within 2e-12 degrees of the exact one, up to zoom 35 a clockwise rectangle of positive size; rings of neighbours share the two points of their common edge bit for bit.",
  "every tile and float64 position, every math library of that accuracy","all float64 positions and tiles",["tileid/tileid.go:Ul","tileid/tileid.go:Bounds","tileid/tileid.go:Tile","tileid/tileid.go:Center","tileid/tileid.go:Parent"])
p("Lon/lat and grid coordinates in float64","In float64 arithmetic, with functions of package math accurate to 2^-50, for every tile and extent with extent times 2^zoom at most 2^34 (extent 4096: zoom 22): SinglePoint gives a grid point at most 0.51 units from the position's place in the tile's grid (positions up to two tiles away, latitudes beyond the map counted at its edge), in 0..extent for positions in the tile, and with ExtentBool always; ToGeoJSON's position of a grid point is within 5e-13 degrees of the exact one; a grid point converted to lon/lat and back is itself; a position written and read moves at most 0.52 units.",
  "every tile, extent, float64 position and grid point, every math library of that accuracy","all float64 positions",[WG+":ConvertPoint",WG+":ConvertCursor",WG+":NewCursorExtent",WG+":SinglePoint",RF+":Project",RF+":ToGeoJSON"])
p("Features of a tile map","NewFeatures gives one feature for each tile of the map, in any map order: the geometry of the tile, every given property, TILEID the tile's name (which Strtile reads back as the tile, so tile and feature correspond one to one) and COLORKEY white; NewFeature keeps the geometry and every property except COLORKEY. TrimMultiPolygon(Float) closes every ring and changes nothing else. (Properties TILEID and COLORKEY of the user are overwritten; feature ids are not kept.)",
  "every tile map, geometry, property map and iteration order","all maps and orders",[CL+":NewFeature",CL+":NewFeatures","mvt/write_geometry.go:TrimMultiPolygon","mvt/write_geometry.go:TrimMultiPolygonFloat","mvt/proto.go:getProto"])
p("Default reduction of a tile","With the configuration NewReduceConfig(tile), Filter keeps of a sequence of point features (multi-points by their centroid) exactly the first in each cell of the grid that divides the tile into 256 by 256 cells, so at most 65536 inside the tile; a line or polygon feature exactly if its bounding box is wider than 0.5 % of the tile's width or higher than 0.5 % of its height.",
  "every tile (zoom up to 50) and sequence of features","all sequences",["mvt/feature_reduce.go:NewReduceConfig","mvt/feature_reduce.go:Filter"])
p("Settings of the glyph builder","NewSDFBuilder takes font size and buffer each from the last option that sets it (non-zero), else 64 and 3; without a buffer option every drawable glyph has a bitmap of (width+6)*(height+6) bytes, which DrawGlyph shows unchanged; the baseline splits the line gap evenly. Coverage fails exactly if a font cannot be parsed and otherwise reports every language, in order, against the parsed fonts.",
  "every option list, font, metrics and font list","all option lists and fonts",["font/sdf_builder.go:NewSDFBuilder","font/sdf_builder.go:Init","font/cover.go:Coverage","font/cover.go:CoverageTTFS"])
p("Tiles of lon/lat features in float64","In float64 arithmetic: write layers of lon/lat features with WriteLayer, concatenate them, read the tile and convert each feature with ToGeoJSON for its tile: whatever package math computes, layers and features come back in order with name, extent, version, id and properties, and every geometry with the same parts, each position replaced by the position of the grid point it was written as; with functions of package math accurate to 2^-50 that is at most 0.52 of a grid cell from where the position should go (its place, or with ExtentBool the nearest place within the tile), for positions up to one tile away. ReadTile and ReadRawTile (grid points instead of positions) return the same with the property layer added, if no feature without id (or with id 0) follows one of its layer with an id. With the default configuration, or any with ExtentBool and an extent up to 32767, no line, polygon, multi-line or multi-polygon without empty parts and flat outer rings is refused.",
  "every tile, extent, configuration, layer list, float64 geometry and math library","all float64 positions, geometries and layer lists",["mvt/write_layer.go:WriteLayer","mvt/write_feature.go:AddFeature",WG+":SinglePoint",RF+":ToGeoJSON",RF+":Project"])
p("Numbers in tile names","Strtile reads \"a/b/c\" for any three Go integer literals - decimal, 0b, 0o, 0x or zero-prefixed octal, with sign and underscores - as the tile of their values, each replaced by the nearest int64 (zoom as its unsigned reading); TileFromString does the same for unsigned literals between any of its delimiters. Any other text counts as 0 (or, 17 characters or longer, possibly as a bound of int64), so a zero-padded number is octal and 0 if it has a digit 8 or 9; Strtile panics exactly for fewer than two slashes.",
  "every text","all literals in all notations",["tileid/tileid.go:Strtile","tileid/tileid.go:TileFromString"])
p("Metadata written by other tools","GetMetadata on any table of names and values: every text field is that of the last non-empty row of its name; the type is overlay exactly for the text overlay; zooms are the decimal integers of the rows (sign and leading zeros allowed), or, if the largest is missing or 0, the smallest and largest zoom of the tiles; centre and bounds are the comma-separated numbers in any decimal notation with spaces around, each rounded to float64, missing ones 0; tile size, resolution factor and layer data likewise; fields without a row are zero. It succeeds if all rows of the known names are readable and there are tiles or a largest zoom, and fails if a zoom is not a 64-bit integer, a list is too long, or layer data does not decode; of a list that is not well formed only a bad last component is an error, an earlier one reads as 0. Several json rows are decoded one over the other in order, and a NULL value is never read as text: it is an error or another row's panic, never a result.",
  "every table of rows, every order and multiplicity, all numerals","all tables and numerals",["mbtiles/mbtiles.go:GetMetadata","mbtiles/metadata.go:stringToBounds","mbtiles/metadata.go:stringToCenter","mbtiles/metadata.go:stringToTileSize","mbtiles/metadata.go:stringToResFactor"])
p("Tiles that end badly","If the bytes are layers written with this package followed by anything at all, then whenever NewTile returns, with or without an error, its tile begins with all these layers, complete and in order; and whenever ReadTile returns, its features begin with those of these layers (features with type and geometry, none without id after one of its layer with an id). Each returns an error exactly if the bytes cannot be read to the end (ReadTile also if there is no feature). The same holds for layers of any other writer, whose layers but the last are closed and whose last ends with its version. If reading fails in a layer whose name could be read, the tile's name list has this name although no layer of the tile has it. ReadRawTile on bytes that cannot be read to the end returns no features, no points and no error; otherwise the features of the bulk reader in tile coordinates and the north-west and south-east corners of the tile, whatever the extents, with an error exactly if there is no feature.",
  "every list of layers, every byte string after them, every tile","all byte strings",["mvt/read_tile.go:NewTile","mvt/read_tile.go:ReadTile","mvt/read_tile.go:ReadRawTile"])
p("ClipFeature of lines","ClipFeature of a LineString on the map, to an end zoom (up to 30) deeper than its first tile: terminates without panic; the line lies in the first tile; the entries are for distinct descendants of it (without parents only of the end zoom); an entry's geometry is exactly the part of the line in its tile, or missing; every such tile the line meets has an entry and the end-zoom tiles reach every point of the line; a line that never turns back in longitude or latitude (every segment) loses nothing. Otherwise parts can be lost (a defect): a child in whose longitudes the line has several stretches gets an entry without geometry, and of a MultiLineString nothing but the first tile's own entry keeps a geometry. A line whose first tile is at the end zoom or deeper is stored whole under that tile and its ancestor at the end zoom.",
  "every line and multi-line on the map, end zoom, keep-parents flag and map iteration order","all lines, zooms and map orders",["mvt/clip.go:ClipFeature","mvt/clip.go:ClipDownTile","mvt/clip.go:clip","mvt/clip.go:clipLine","mvt/clip.go:GetFirstZoom"])
p("Sprite sizes in float64","With float64 arithmetic the width and height GenerateSprite gives an image are its size times wanted over own pixel ratio with the fraction cut off, except that an exactly whole result may come out one pixel smaller (45 pixels at ratio 5 wanted at 7 give 62, not 63); they are exact if the own ratio is a power of two or divides the wanted one, so an image of the wanted ratio keeps its size; a larger image never gets a smaller sprite. With these sizes the sheet is as in C15: every image placed, no overlaps, nothing outside.",
  "every list of images with sizes below 2^28, wanted ratio below 8, own ratio below 2^53","all sizes and ratios",["sprite/sprite.go:ScaleTo", "sprite/sprite.go:GenerateSprite"])
p("Clipping in float64","With float64 arithmetic, for coordinates up to 400, clipping a line to a slab gives the same number of pieces with the same number of vertices as exact arithmetic, each vertex the same along the axis and at most 2^-39 off across it; so the result is the part of the line in the slab up to 2^-39, in both directions. Every vertex ClipTile or the subdivision into children produces, for any kind of geometry, has its latitude exactly in the tile's range and its longitude up to 2^-39 in the range (and it can really be outside: shown). ClipTile of a line with one stretch in the longitude range is the part of the line in the tile up to 2^-39, parts within 2^-39 of the northern and southern edge aside; any other line is dropped, as with exact arithmetic.",
  "every geometry and every box with float64 coordinates up to 400","all coordinates, and rounding can push a point over an edge",["mvt/clip.go:IntersectX", "mvt/clip.go:IntersectY", "mvt/clip.go:clipLine", "mvt/clip.go:ClipTile", "mvt/clip.go:ClipDownTile"])
p("Closing rings in the caller's memory","LintPolygon, TrimPolygon(Float) and their multi-polygon forms work in the caller's memory. If no two rings share cells of an array (up to capacity) the caller's polygon afterwards has the rings of the value model, each closed, and no other slice in memory reads differently; an empty ring panics. Clipping leaves the caller's polygon unchanged exactly if every ring ends with its first point, and clipping the changed polygon again gives the same result as clipping the original. If rings share one array and an open ring has spare capacity, closing it overwrites the first point of the next ring.",
  "every memory, every list of rings, every growth policy of append","aliasing and capacity depend on how the caller built the slices",["mvt/clip.go:LintPolygon", "mvt/clip.go:LintMultiPolygon", "mvt/write_geometry.go:TrimPolygon", "mvt/write_geometry.go:TrimPolygonFloat", "mvt/write_geometry.go:TrimMultiPolygonFloat"])
p("Distance field in float64","The distance transform and CalcSDF in float64, every operation rounded. For a grid with sides 2..4096 and seeds in [0,1] or INF there is no panic; each pixel is the root of a value within (w+h)/2^24 + 2^-25 of the least squared distance plus seed, or at least 10^20 when no seed is finite; for masks without grey pixels the squared distances are exact. With Glyph's radius and cutoff and a square root with float64's relative error, the bytes differ by at most 1 from those of exact arithmetic for images up to 1024x1024, and up to 4096x4096 a pixel covered at least half gets at least 191, one covered at most half at most 191.",
  "every size in range, every seed grid or alpha mask, every content of the work slices","rounding of the envelope's intersections depends on every combination of seeds, and 1e20 absorbs small terms",["font/sdf_builder.go:CalcSDF", "font/sdf_builder.go:edt", "font/sdf_builder.go:edt1d"])
p("Point in polygon in float64","Pip in float64, every operation rounded: it panics exactly when a ring is empty; closing a ring or not, starting it elsewhere and the order of the rings do not matter; a point more than 2^-42 degrees (horizontally) from every slanted edge gets the answer of exact arithmetic; rings of horizontal and vertical edges, rectangles among them, are treated exactly as half-open sets; a point north, south or east of all vertices, or more than 2^-42 degrees west of them, is outside; triangles separate inside and outside up to that margin. Two things true of exact arithmetic are false here: reversing a ring can change the answer, and a point just west of every vertex can be found inside.",
  "every list of rings with longitudes within 180 and every point","rounding of the intersection depends on every combination of four coordinates",["tile_cover/tile_cover.go:Pip"])
p("Tile cover in float64","GetTilesPolygon and GetTilesLine in float64, for every math library within a stated accuracy. The bounding box is exact; the cover of a polygon is, without repeats, exactly the tiles in the box's range that hold the box, have a corner inside by Pip or hold a vertex; it has the tile of every vertex of a closed outer ring whose latitude is not within 2^-41 of the map's height of a row edge; every tile of it holds the polygon, holds a vertex or has a point of the exact polygon within 2e-12 degrees of a corner, and conversely a tile with a clearly inside corner is there. The cover of a line repeats no tile, has the zoom, starts with the first vertex's tile, has every vertex's tile, and does not depend on map order; a segment along a parallel misses no tile up to zoom 31 unless its length is within 1e-11 degrees of a tile's width; one along a meridian taken for longer than a tile misses no row up to zoom 27. Every tile of a line's cover up to zoom 30, latitudes within 85, is that of a vertex or of a point within 1e-11 degrees of the line through two consecutive vertices, at most 1.002e-7 degrees, along an axis, beyond the segment. The covers of multi-lines and multi-polygons are those of the parts in order, each tile where it is first seen.",
  "every polygon or line, zoom in range, map order and accurate math library","all coordinates, roundings and map orders",["tile_cover/tile_cover.go:GetTilesPolygon", "tile_cover/tile_cover.go:TilePolygon", "tile_cover/tile_cover.go:GetTilesLine", "tile_cover/line_corner_case.go:BetweenTiles", "tile_cover/line_corner_case.go:Interpolate"])
p("Simplification and thinning in float64","With coordinates at most M in absolute value and every operation rounded to float64: GetSqSegDist is within M^2/2^44 of the exact squared distance to the segment; Simplify terminates without panic and changes only importances of interior points; measured exactly, every unmarked point is within the squared tolerance plus M^2/2^44 of the segment joining its marked neighbours, and the importance of a marked point is above the tolerance and within M^2/2^44 of its exact squared distance from a segment joining two kept points around it, no point between being farther by more than M^2/2^43. The mean Filter computes for a multi-point of n points is within (n+2)M/2^53 of the exact mean.",
  "every coordinate array, range, tolerance and bound M; every multi-point of at most 2^32 points","all inputs; rounding errors accumulate through a quotient and a sum of any length",["mvt/simplify.go:Simplify", "mvt/simplify.go:GetSqSegDist", "mvt/feature_reduce.go:Filter"])
p("Covering a polygon leaves the caller's polygon alone","TileCover and Pip close rings in memory of their own as far as the caller can see: if the rings of a polygon (or of all polygons of a multi-polygon) share no memory, counting spare capacity, the tiles are those of the points the rings hold and afterwards every ring, and every slice apart from them, reads as before; if every ring starts and ends at one longitude the memory is not written at all, and if no ring has spare capacity none of the caller's arrays is, wherever the rings lie. Rings cut out of one flat list are the exception: an open ring with spare capacity overwrites the first point of the ring behind it in the caller's polygon, and Pip answers for the damaged polygon (a point outside a hole is taken to be in it).",
  "every memory layout of the rings, every growth rule of append, polygons and multi-polygons of any size, zoom, exact arithmetic and float64","memory layouts and capacities are unbounded; a test sees its own literals, which have no spare capacity",["tile_cover/tile_cover.go:Pip", "tile_cover/tile_cover.go:TilePolygon", "tile_cover/tile_cover.go:GetTilesPolygon", "tile_cover/tile_cover.go:TileCover"])
p("Glyph files","A Glyphs message whose required fields are set (what SDFBuilder.Glyphs returns always is) is written by proto.Marshal without an error and proto.Unmarshal gives back exactly it: stacks and glyphs in order, ids, sizes, signed offsets, advances, bitmaps, nil and empty bitmaps told apart, unknown fields included. A file of any other protobuf writer, with fields in any order, repeated or unknown, is read as the last value of each field, and refused exactly if a required field is missing (the rest is then still returned); whatever was read can be written again, takes no more space and reads the same; files put one after the other are one file with all stacks; a file of one stack cut short anywhere is refused (unless nothing is left). (A value beyond 32 bits is cut; a field of the wrong wire type is no error but missing.)",
  "every message, every sequence of wire fields, every byte sequence that is read, every cut","byte-level format: all messages, all field orders and all truncation points",["font/glyph.pb.go:Glyph", "font/glyph.pb.go:Fontstack", "font/glyph.pb.go:Glyphs", "font/glyph.proto", "font/sdf_builder.go:Glyphs"])
p("JSON documents","A value of any of the document types (tilejson.TileJSON, VectorLayer and Tileset, recipe.Recipe, client.ListStyle, mbtiles.LayerData and Metadata, the languages NewFontCoverage takes and the coverage it reports) that is marshalled to JSON and decoded again, as GetTileJSON, ListTilesets, ListStyles, GetMetadata and NewFontCoverage decode, is the same value: every text, number, coordinate, list, map and date with its nanoseconds and time zone. Only empty lists of omitempty fields come back as nil, a pointer to a nil list of layers as a nil pointer, and Go integers inside interface{} as the nearest float64. A TileJSON document has exactly the members of TileJSON 2.2.0 plus the package's own, nil as null. The documents of listed styles and tilesets, languages, coverages, layer data and metadata (through a pointer) have exactly the members of their kind, in order, leaving out what the tags allow to be left out when it is empty; dates and coordinates are always there. Writing a listed style or tileset is an error exactly when one of its dates cannot be written, and metadata with a layer type other than the two is an error. Reading does not depend on the order of members, ignores members with other names, does not mind upper case in names, and for a repeated name takes the last value. A zoom that is not a whole number from 0 to 2^64-1, a tile size not below 2^32, or a text field that is not a text makes GetTileJSON return an error and the zero TileJSON. Metadata of an overlay marshalled by value cannot be read back (its type is written as the number 1); through a pointer it can.",
  "every value of these types within the ranges of its Go types, every document","needs all values and all documents: any order, repetition and spelling of members",["tilejson/tilejson.go:TileJSON", "tilejson/tilejson.go:VectorLayer", "tilejson/tilejson.go:Tileset", "recipe/recipe.go:Recipe", "client/types.go:ListStyle", "client/client.go:GetTileJSON", "client/client.go:do", "mbtiles/metadata.go:LayerData", "mbtiles/metadata.go:Metadata", "mbtiles/mbtiles.go:LayerType.MarshalJSON", "mbtiles/mbtiles.go:LayerType.UnmarshalJSON", "font/cover.go:NewFontCoverage", "font/cover.go:LanguageCodePoints"])
p("JSON texts are read exactly when they are JSON, and what is written is read back","Every text read by encoding/json for this library (TileJSON, tileset and style pages, font and language lists, recipes, the metadata's json row) is accepted exactly when it is a JSON text of RFC 8259 with arrays and objects nested at most 10000 deep, and then stands for the one value the RFC's grammar gives it (white space, escapes, surrogate pairs, numbers); a decoder reading a response body takes the first value and ignores the rest; an array or object cut short anywhere is refused, so a truncated download never gives a document. What is written is a JSON text for the value, on one line, never contains the characters <, >, &, U+2028, U+2029 or a control character, and is read back as the same value. Whence, as texts: TileJSON, listing pages, recipes, languages, layer data and metadata survive being written and read, and metadata stored in an mbtiles file comes back with its layer data; two json rows that are objects read as one object with the members of both.",
  "all texts (lists of characters), all JSON values, all valid documents of each type, all suffixes after a document, all cut points, all orders of rows in the metadata table","The set of texts is infinite, and the claim is about exactly which are accepted and that no two readings exist; a test can only sample texts.",["client/client.go: Client.do, ListTilesets, GetTileJSON", "tilejson/tilejson.go: TileJSON", "mbtiles/mbtiles.go: GetMetadata (409)", "mbtiles/metadata.go: ToMap (66)", "font/cover.go: NewFontCoverage"])
p("Which JSON documents are accepted, and what their values become","A TileJSON answer, a page of tilesets or styles, a recipe, a list of languages, the json entry of an mbtiles file and a metadata document are each accepted exactly when the document has the shape of its type: a member that is missing, null or unknown never matters, a known one (names compared without regard to case) must have the kind of value its name calls for, whole numbers must be in range, other numbers must round to a finite float64, also inside free-form values, only the first four bounds and three centre coordinates are looked at, dates must be dates, and a layer type may not be null. As texts, server answers and languages are accepted exactly when they begin with such a value (anything may follow), the others exactly when they are one such value and white space, in both cases nested at most 10000 deep. On a refused document GetTileJSON gives an error and the zero value. From an accepted one bounds and centre are the float64 nearest to the numbers given (ties to even, subnormals included), 0 where the list is too short; texts and lists that may be nil are the last ones given or nil; null under the name of a plain field is as good as nothing; the fields of a layer hold, for every name, the last text given under it.",
  "every JSON document with well-spelled numbers; every text; every position and spelling of a member","Acceptance is an iff over all documents, with arbitrary nesting, repeated, unknown and differently capitalised members and all spellings of numbers and dates; tests try a handful of documents.",["client/client.go: GetTileJSON, ListTilesets, ListStyles", "tilejson/tilejson.go: TileJSON, VectorLayer, Tileset", "client/types.go: ListStyle", "font/cover.go: NewFontCoverage", "mbtiles/metadata.go: Metadata, LayerData", "mbtiles/mbtiles.go: LayerType.UnmarshalJSON, GetMetadata"])
p("Which style texts are parsed, and into what","style.Parse succeeds exactly when its input begins, after white space, with a JSON document, nested at most 10000 deep, that is an acceptable style (every member, matched up to case, has the kind of value its name calls for; version and transition times must be spelled as ints, so 8.0 is refused) and whose background colour can be computed; what follows the document does not matter. The result is the style the document describes and its background. A document that is cut short or nested too deeply is an error, never a panic or a style. When a member is given more than once the last non-null id and version count, and a repeated paint or layout is merged member by member.",
  "every text (list of characters), every JSON document, every spelling of numbers, strings and white space, every prefix of a document","there are infinitely many texts for a document, and acceptance has to be shown both ways: each acceptable text is parsed and no other is",["style/style.go: Parse, Style, calculateBackgroundColor", "style/layer.go: Layer, Light, Source, Transition", "style/paint.go: Paint", "style/layout.go: Layout", "style/colors.go: ColorType.UnmarshalJSON", "style/numeric_function.go: NumberOrFunctionWrapperType.UnmarshalJSON"])
p("JSON as bytes, and UTF grids as JSON","Wherever the library reads JSON from bytes (server answers, style files, language lists, the json entry, grids and key rows of an mbtiles file) it reads UTF-8, taking U+FFFD for each byte that begins no character, and accepts exactly the bytes whose characters are a JSON text (or begin with one); what it writes is well-formed UTF-8 that is read back as the same document. The bytes of an array or object cut short anywhere, even inside a character, are refused. ReadGrid answers, compressed like the stored grid, the UTF-8 of one JSON object with each name once: the members of the stored grid with the last value of each name (texts, truth values and structure the same, numbers the same float64) and under data an object giving for every key name the JSON object, or null, of its last row; a row that is no single JSON object or null (also one with something behind the object) counts as an empty object.",
  "every byte string, every document, every grid and set of key rows","all byte strings, all documents, all cut points",["client/client.go:do", "style/style.go:Parse", "font/cover.go:NewFontCoverage", "mbtiles/mbtiles.go:ReadGrid", "mbtiles/mbtiles.go:GetMetadata"])
p("Calls of the API client from arguments to results","Whatever the user name, the ids and the token are, the first request of ListStyles, GetStyle, ListTilesets and GetTileJSON is a legal address of api.mapbox.com that is decoded to the path asked for, and its parameters are the token and those given (a limit in decimal); nothing can add a query, a fragment, a blank or a line break. GetTileJSON returns the TileJSON the server marshalled, ListStyles and ListTilesets what the linked pages hold, in order, one request per page; GetStyle returns a style exactly when the answer begins with JSON for it. (The status is not looked at: a 404 with a JSON object makes GetTileJSON return an empty value and no error.)",
  "all user names, ids, tokens and parameters, as byte strings; all networks (functions from the requests so far to answers), all chains of pages of any length","a test sees a few names and one recorded server; injection into the request and the loss of pages depend on all byte strings and all chains of answers",["client/client.go: ListStyles, GetStyle, ListTilesets, GetTileJSON, do, addAuthentication, nextPageURL", "client/types.go: ListStyle", "tilejson/tilejson.go: ListTilesetsParams, Tileset, TileJSON"])
p("The sprite index file","The map that GenerateSprite returns, written with encoding/json as the index file of a sprite and read by a client, has exactly the names of the textures; the entry of each is one object with the texture's id if it has one, its scaled width and height, the pixel ratio and its place, all integers, and nothing else. Read back, every entry is what was written (but for the name, which is only the key), every rectangle lies on the sheet and no two share a pixel. Members an entry does not know are ignored; an entry with only a place has no texture of its own.",
  "all sets of textures with distinct names and any strings as names and ids, all sizes and places that fit a Go int, all admissible results of the unstable sort, all unknown members","the index is only useful if every name and every rectangle survives the text; embedded pointers, omitted members and escapes in names depend on all inputs",["sprite/sprite.go: TextureSprite, TextureMeta, GenerateSprite"])
p("Drawing the glyphs of a file","DrawGlyph of any glyph message returns an image exactly if the glyph has a width and a height and its bitmap has a byte for every pixel of the glyph with a border of three pixels; otherwise it panics. The image has that size and shows the first bytes of the bitmap, row by row: as they are, or through a ramp that in float64 is for every byte exactly the integer part of the smooth step from 168 to 200, rises and never exceeds the byte. Glyphs made with the default border, written to a glyph file and read again, are all drawn and show the whole distance field.",
  "all glyph messages (any sizes up to 2^32, wrapped, any bitmap, missing fields), both modes, all fonts","whether the drawing runs out of the bitmap depends on all sizes and lengths of files of any writer; float64 rounding could move any of the bytes",["font/utils.go: DrawGlyph, alpha", "font/glyph.pb.go: Glyph"])
p("Addresses of further pages","A Link header that names an http or https address (RFC 3986: host and port, path, query, fragment) for the next page makes ListStyles and ListTilesets send the next request to exactly that address, byte by byte up to the query, with the address's parameters and the token; so the lists hold all the linked pages in order. What is sent is parsed by the library as what was meant, for these and for the first requests. An address the library refuses (control characters, broken percent-encodings in the path, a leading colon) ends the list silently; an address without a host is not completed; two links in one header are taken for one address; the token is sent to whatever host a page names.",
  "all addresses of the grammar, all Link headers with one address, all tokens and queries, all chains of pages, all networks","which bytes survive parsing and printing of an address depends on all byte strings; a test has one recorded Link header",["client/client.go: nextPageURL, do, addAuthentication, ListStyles, ListTilesets"])
p("Properties and ids through clipping","ClipTile and ClipFeature of a line or polygon return features with the property map and the id of the one they are given, and change no property map. Of a point they return the caller's own feature, of a multi-point new features with the caller's own property map and without its id; in both cases the tile is written under TILEID into the caller's map, nothing else in any map changes, and a feature without a property map makes them panic as soon as a point is kept. Since the map is shared, clipping a multi-point to a second tile changes the TILEID of the first result.",
  "all features, ids, property maps, tiles, zooms, orders of map iteration, and any arithmetic for points and tiles","all features and iteration orders; the effect is on shared memory and shows only in other features that hold the same map",["mvt/clip.go:PointClipAboutTile", "mvt/clip.go:PointClipAboutZoom", "mvt/clip.go:makefeature", "mvt/clip.go:ClipTile", "mvt/clip.go:ClipFeature"])
p("Distance in float64","`tilecover.Distance` in float64 arithmetic: the order of the two points does not matter to the last bit and the distance of a point to itself is 0; for longitudes of at most 180 and latitudes of at most 90 degrees in size the result is a number unless the points are opposite each other on the globe to within 0.0025 miles, it is then not negative and within 0.0025 miles (four metres) of the great-circle distance on the sphere of 3963.190592 miles radius, and within 3 millionths of a mile when that distance is between 1 and 12449 miles. A detour over a third point is never shorter by more than 0.0075 miles. Between exactly opposite points the result may be NaN.",
  "all pairs of positions (any float64 coordinates for symmetry, coordinates on the map for accuracy), all math libraries whose sine, cosine, square root and arctangent are accurate to about 2^-50","The rounding errors depend on every bit of four coordinates and are amplified without bound (square-root fashion) near zero and near the antipode; a test compares a few pairs with a tolerance.",["tile_cover/line_corner_case.go: Distance, deg2rad, EarthRadius"])
if __name__=="__main__":
    import os
    with open(os.path.join(os.path.dirname(__file__),"..","properties.jsonl"),"w") as f:
        for x in P: f.write(json.dumps(x)+"\n")
    print(len(P))
