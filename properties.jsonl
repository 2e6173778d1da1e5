{"id": "C01", "title": "Quadkey round trip", "statement": "QuadkeyToTile(QuadKey(t)) == t for every tile t of zoom >= 1 with 0 <= X,Y < 2^Z, and QuadKey(QuadkeyToTile(s)) == s for every non-empty string s of digits 0..3 (up to 63 digits, the width of the coordinates). Zoom 0 is the one exception: its quadkey is empty and decodes to zoom 1.", "quantifier": "every tile id of every zoom; every quadkey string", "why_tests_cant": "unbounded zooms; a test samples a few tiles", "anchors": ["tileid/tileid.go:QuadKey", "tileid/tileid.go:QuadkeyToTile", "tileid/tileid.go:reverse"]}
{"id": "C02", "title": "Quadkey structure", "statement": "QuadKey(t) has exactly Z digits, all in 0..3; the four Children of t have the quadkeys of t extended by 0, 1, 3, 2 in that order; so t is an ancestor of u exactly when QuadKey(t) is a prefix of QuadKey(u), and two different tiles never share a quadkey.", "quantifier": "every tile id of every zoom, every descendant depth", "why_tests_cant": "quantifies over all pairs of tiles and all depths", "anchors": ["tileid/tileid.go:QuadKey", "tileid/tileid.go:Children"]}
{"id": "C03", "title": "Children partition the next zoom level", "statement": "Children(t) returns four distinct tiles of zoom Z+1; a tile of zoom Z+1 in the world grid is a child of exactly one tile of the zoom-Z grid; different tiles have disjoint children.", "quantifier": "every tile of every zoom (no int64 overflow)", "why_tests_cant": "all tiles", "anchors": ["tileid/tileid.go:Children"]}
{"id": "C04", "title": "Children subdivide the bounding box", "statement": "The four boxes Bounds(child) share the parent's outer edges, meet at one common meridian and one common parallel, have positive size, and every (lon,lat) in the parent's box lies in exactly one of them (half-open).", "quantifier": "every tile, every point", "why_tests_cant": "real-valued domain", "anchors": ["tileid/tileid.go:Bounds", "tileid/tileid.go:Ul", "tileid/tileid.go:Children"]}
{"id": "C05", "title": "Tile is the inverse of Bounds", "statement": "For lat strictly between -90 and 90: Tile(lng,lat,z) == {x,y,z} if and only if the point lies in Bounds({x,y,z}), west and north edges included, east and south edges excluded. In particular every point of the Web-Mercator square maps to a tile 0 <= x,y < 2^z.", "quantifier": "every point and zoom", "why_tests_cant": "continuum of points", "anchors": ["tileid/tileid.go:Tile", "tileid/tileid.go:Bounds", "tileid/tileid.go:Ul"]}
{"id": "C06", "title": "Parent inverts Children", "statement": "Parent(c) == t for every child c of t, and c is one of Children(Parent(c)) for every c of zoom >= 1, although Parent goes through the lon/lat centre and Tile.", "quantifier": "every tile of every zoom >= 1", "why_tests_cant": "all tiles; composition of transcendental functions", "anchors": ["tileid/tileid.go:Parent", "tileid/tileid.go:Center", "tileid/tileid.go:Tile", "tileid/tileid.go:Children"]}
{"id": "C07", "title": "Textual tile ids round trip", "statement": "Strtile(Tilestr(t)) == t for every 64-bit tile id; TileFromString(Tilestr(t)) == t and TileFromString(TilestrFile(t)) == t when coordinates are non-negative. (Negative coordinates are misread by TileFromString because '-' is tried as the delimiter first.)", "quantifier": "every tile id", "why_tests_cant": "all 2^192 tile ids", "anchors": ["tileid/tileid.go:Tilestr", "tileid/tileid.go:TilestrFile", "tileid/tileid.go:Strtile", "tileid/tileid.go:TileFromString"]}
{"id": "C08", "title": "IsEqual is equality", "statement": "IsEqual(a,b) is true exactly when all three fields agree, also for Z >= 2^63 where the int conversion wraps.", "quantifier": "every pair of tile ids", "why_tests_cant": "all pairs", "anchors": ["tileid/tileid.go:IsEqual"]}
{"id": "C09", "title": "Line cover: exact vertices, no repeats", "statement": "GetTilesLine(line,z) never repeats a tile, returns only tiles of zoom z, starts with the tile of the first vertex and contains the tile of every vertex, whatever order the internal maps are iterated in; the set of tiles does not depend on that order. Every returned tile is that of a vertex or of a point on the line through two consecutive vertices within .0000001 of the segment; between two vertices of one tile row no tile the segment passes through is missing, and between two vertices whose tiles are two or more columns apart (or two or more rows, if the code looks there) no tile in which the segment has a stretch of more than .0000001. A user would expect this of every segment; that is false for segments cutting a corner between diagonal neighbours, and along a column towards the poles.", "quantifier": "every polyline, zoom and map iteration order", "why_tests_cant": "all inputs and all map orders", "anchors": ["tile_cover/tile_cover.go:GetTilesLine", "tile_cover/line_corner_case.go:BetweenTiles", "tile_cover/line_corner_case.go:FillVals", "tile_cover/line_corner_case.go:ProduceVals"]}
{"id": "C10", "title": "Bounding box of a ring", "statement": "BoundingBoxPoints(ring) is the exact bounding box of a closed ring of lon/lat points. (False for open point lists, where the first point never updates the east/north side.)", "quantifier": "every closed ring", "why_tests_cant": "all rings", "anchors": ["tile_cover/tile_cover.go:BoundingBoxPoints"]}
{"id": "C11", "title": "Point in polygon", "statement": "Pip gives the same answer for a ring written closed or open, forwards or backwards, or started at another vertex, and the rings in any order; it is false for every point outside the bounding box of the rings; for a rectangle it is the half-open rectangle, for a triangle every inner point is in and every point outside the closed triangle is out, and every ring is the exclusive-or of the triangles of its fan.", "quantifier": "every polygon and point", "why_tests_cant": "all polygons", "anchors": ["tile_cover/tile_cover.go:Pip"]}
{"id": "C12", "title": "Polygon cover: sound range, no repeats", "statement": "GetTilesPolygon(polygon,z) never repeats a tile, returns only tiles of zoom z inside the tile range of the outer ring's bounding box, and contains the tile of every outer-ring vertex of a closed ring. Within that range it returns exactly the tiles that hold the box, have a corner in the polygon or hold a vertex; so a tile crossed by the polygon without any of these is missed.", "quantifier": "every polygon and zoom", "why_tests_cant": "all polygons", "anchors": ["tile_cover/tile_cover.go:GetTilesPolygon", "tile_cover/tile_cover.go:TilePolygon", "tile_cover/tile_cover.go:RunPolygon", "tile_cover/tile_cover.go:GetDif"]}
{"id": "C13", "title": "Tile cover of collections", "statement": "TileCover of a MultiLineString or MultiPolygon is the duplicate-free union, in first-seen order, of the covers of its parts; Point gives exactly the point's tile; degenerate polygons give nothing. MultiPoint is expected to give the points' tiles but reads the wrong field.", "quantifier": "every feature", "why_tests_cant": "all features", "anchors": ["tile_cover/tile_cover.go:TileCover", "tile_cover/tile_cover.go:CreateMap"]}
{"id": "C14", "title": "Sprite packing never overlaps", "statement": "GrowingPacker.Fit places blocks so that any two blocks occupy disjoint rectangles and every block lies inside the packed area with non-negative coordinates.", "quantifier": "every list of blocks for which packing succeeds", "why_tests_cant": "all block lists of any length", "anchors": ["sprite/growing_packer.go:Fit", "sprite/growing_packer.go:growNode", "sprite/growing_packer.go:splitNode"]}
{"id": "C15", "title": "Sprite generation always succeeds and fits", "statement": "GenerateSprite, for textures with distinct names and non-negative sizes, never fails in packing whichever order the unstable sort leaves equal areas in; every texture gets a position; the sheet is exactly as wide and high as its furthest sprite (1 if empty) and the sprites are disjoint inside it.", "quantifier": "every texture list, every permitted sort result", "why_tests_cant": "all lists and sort orders", "anchors": ["sprite/sprite.go:GenerateSprite", "sprite/growing_packer.go:Fit"]}
{"id": "C16", "title": "Style file names round trip", "statement": "ParseStyleFile(f.String()) == f for every StyleFile with a non-empty lower-case Type without '@', an alphanumeric lower-case extension and PixelRatio 1 or in 2..2^63-1. A name is accepted exactly when some character other than '@', an optional @digits x and a dot with letters or digits end it; it means its reading from the earliest place, in lower case, the number as ratio (1 if it is no int64). An accepted name, unless of ratio 0, prints as a name of the same meaning. UnmarshalText of a bad text keeps the old value.", "quantifier": "every such StyleFile; every ASCII name", "why_tests_cant": "all names", "anchors": ["sprite/style_file.go:ParseStyleFile", "sprite/style_file.go:String"]}
{"id": "C17", "title": "Language coverage accounting", "statement": "For each language Count is the number of exemplar characters contained in at least one of the fonts, Count == sum of Coverages <= Total, a character is credited to the first font that has it, Count does not depend on the order of the fonts and never falls when a font is added.", "quantifier": "every language table and list of fonts", "why_tests_cant": "all tables", "anchors": ["font/cover.go:coverage", "font/cover.go:difference"]}
{"id": "C18", "title": "Signed distance field is the exact Euclidean distance", "statement": "Over exact arithmetic the distance transform returns at each pixel sqrt(min over pixels of squared distance + seed cost), for every image with both sides >= 2.", "quantifier": "every grid size and every seed grid", "why_tests_cant": "lower-envelope algorithm; all images", "anchors": ["font/sdf_builder.go:edt", "font/sdf_builder.go:edt1d", "font/sdf_builder.go:CalcSDF"]}
{"id": "C19", "title": "Glyph range output", "statement": "Glyphs(min,max) returns glyphs with strictly increasing ids in [min,max), never id 0, exactly those the font can draw with non-zero size, each with a bitmap of (width+2*buffer)*(height+2*buffer) bytes.", "quantifier": "every font and range", "why_tests_cant": "all fonts/ranges", "anchors": ["font/sdf_builder.go:Glyphs", "font/sdf_builder.go:Glyph", "font/utils.go:DrawGlyph"]}
{"id": "C20", "title": "DEM border replication", "statement": "NewDEMData on a dim*dim tile (even count) stores pixel (x,y) at its place and fills the one-pixel border by clamping coordinates to the nearest inside pixel, corners included.", "quantifier": "every tile size and content", "why_tests_cant": "all sizes", "anchors": ["raster/raster.go:NewDEMData", "raster/raster.go:idx", "raster/raster.go:GetData"]}
{"id": "C21", "title": "Mapbox terrain-RGB precision", "statement": "In exact arithmetic decoding MapboxPacker.Pack(h) gives a height at most h and less than 0.1 m below it, for every h in [-10000, 1667721.6), and packing a decoded opaque pixel gives that pixel back. With float64 rounding the first still holds up to 10^-7 m for h <= 1667721.5, and packing a decoded opaque pixel gives that pixel or the code 0.1 m below it, never anything else; both deviations do occur.", "quantifier": "every height; every pixel", "why_tests_cant": "continuum of heights, 2^24 pixels", "anchors": ["raster/raster.go:MapboxPacker.Pack", "raster/raster.go:DEMData.Get"]}
{"id": "C22", "title": "Terrarium precision", "statement": "A user expects decoding TerrariumPacker.Pack(h) to give h within 1/256 m; this is false because the third byte is reduced modulo 25. What holds for every h in [-32768,32768): the decoded height is above h - 1 and at most h + 24/256, and it is within 1/256 m exactly when the residue happens to agree (condition stated in whole metres and 1/256 fractions). With float64 rounding the same bounds hold up to 10^-10 m for h <= 32767; just below 32768 the bytes wrap to the bottom of the range.", "quantifier": "every height", "why_tests_cant": "continuum of heights", "anchors": ["raster/raster.go:TerrariumPacker.Pack", "raster/raster.go:DEMData.Get"]}
{"id": "C23", "title": "Backfilling a neighbour's border", "statement": "BackfillBorder(neighbour,dx,dy) never changes the tile's own pixels, size or stride. A user expects it to copy the adjacent edge of a same-size neighbour into this tile's border; this is false, the size test is inverted and a same-size neighbour is ignored in every direction. The copying loop behind the test does copy exactly the facing edge or corner of a neighbour with the same stride.", "quantifier": "every tile pair and direction", "why_tests_cant": "all tiles", "anchors": ["raster/raster.go:BackfillBorder"]}
{"id": "C24", "title": "Zig-zag and command integers", "statement": "DeltaDim(int(uint32(paramEnc(v)))) == v for every int32 v; a command integer carries id 1/2/7 in its low three bits and any count below 2^29 above them.", "quantifier": "all 2^32 values; all counts", "why_tests_cant": "2^32 values", "anchors": ["mvt/write_geometry.go:paramEnc", "mvt/write_geometry.go:cmdEnc", "mvt/read_feature_lazy.go:DeltaDim"]}
{"id": "C25", "title": "Line geometry round trip", "statement": "Encoding a (multi-)line of tile coordinates with MakeLine/MakeMultiLine and decoding with LoadGeometry gives the same lines with only consecutive duplicate points removed, LineString for one line and MultiLineString for several. This holds for int32 coordinates exactly when every step, from (0,0) on and from line to line, changes each coordinate by an int32; otherwise the points come back off by multiples of 2^32.", "quantifier": "every list of polylines", "why_tests_cant": "all lists and lengths", "anchors": ["mvt/write_geometry.go:MakeLine", "mvt/write_geometry.go:MakeMultiLine", "mvt/write_geometry.go:LinePoint", "mvt/write_geometry.go:MovePoint", "mvt/read_feature_lazy.go:LoadGeometry"]}
{"id": "C26", "title": "Point geometry round trip", "statement": "A point encoded with MakePoint, or a one-point MakeMultiPoint, comes back unchanged from LoadGeometry exactly when it is not (0,0); MakeMultiPoint of two or more points never comes back: reading fails or gives fewer points. The Mapbox-standard multi-point encoding is rejected too.", "quantifier": "every point list", "why_tests_cant": "all points", "anchors": ["mvt/write_geometry.go:MakePoint", "mvt/write_geometry.go:MakeMultiPoint", "mvt/read_feature_lazy.go:LoadGeometry"]}
{"id": "C27", "title": "Polygon geometry round trip", "statement": "A polygon with holes, or a list of such polygons, written through the float writer (rings forced to one orientation, holes to the other) decodes to the same polygons: same grouping of rings, each ring the same closed point sequence up to direction and consecutive duplicates. This holds for all tile coordinates whose area products fit an int32, in particular for coordinates from 0 to 32767 (clamped features of any extent up to that). (Beyond, areas overflow: of a square of side 40000 with a hole, the outer ring comes back reversed and the hole as a second polygon.)", "quantifier": "every multipolygon with non-degenerate outer rings", "why_tests_cant": "all polygons", "anchors": ["mvt/write_geometry.go:MakePolygonFloat", "mvt/write_geometry.go:AssertConvert", "mvt/read_feature_lazy.go:LoadGeometry", "mvt/read_feature_lazy.go:SignedArea"]}
{"id": "C28", "title": "Winding order of the writers and what the reader makes of it", "statement": "A user expects MakePolygon and MakePolygonFloat to write rings in one orientation; they write every ring in opposite orientations. Consequently: a one-ring polygon written by MakePolygon reads back as itself; one with holes reads back as that many separate one-ring polygons; for MakeMultiPolygon the reader groups the rings by cutting before every ring that was a hole, so separate polygons merge and holes split off (exact regrouping proved for every list of polygons).", "quantifier": "every polygon", "why_tests_cant": "all polygons", "anchors": ["mvt/write_geometry.go:assert_winding_order", "mvt/write_geometry.go:AssertConvert", "mvt/write_geometry.go:SignedArea2", "mvt/read_feature_lazy.go:SignedArea"]}
{"id": "C29", "title": "Key/value dictionary", "statement": "After any sequence of AddFeature/AddFeatureRaw/GetTags calls, every tag pair handed out so far still resolves, in the written key and value tables, to the property it was made for; equal keys and equal values share one entry; indices are dense.", "quantifier": "every history of features and every property iteration order", "why_tests_cant": "all histories", "anchors": ["mvt/write_layer.go:GetTags", "mvt/write_layer.go:AddKey", "mvt/write_layer.go:AddValue"]}
{"id": "C30", "title": "Layer write/read round trip", "statement": "NewTile(layer bytes) for a layer written by this package returns one layer with the same name, keys, values, extent, version and number of features, and Feature() returns for each feature its id, type, properties and raw geometry, in order. (A feature added without a geometry, or with a collection, keeps its id and properties; its geometry is read from the start of the tile.)", "quantifier": "every layer content, both tag schemes", "why_tests_cant": "all contents", "anchors": ["mvt/write_layer.go:WriteLayer", "mvt/write_layer.go:Flush", "mvt/write_feature.go:AddFeatureRaw", "mvt/read_layer.go:NewLayer", "mvt/read_feature_lazy.go:Feature", "mvt/read_feature_lazy.go:LoadGeometryRaw"]}
{"id": "C31", "title": "Lazy and bulk readers agree", "statement": "On every tile of well-formed layers, whoever wrote it, ReadTile returns the features in order with the properties that Feature() gives plus the property layer, the layer's extent, and the id, type and geometry of the last feature of the layer up to this one that has one: a feature that has its own is returned as Feature() + ToGeoJSON return it, one that lacks it inherits its predecessor's (a defect). An id of 0 is returned as none. ReadRawTile reads the same features (before projection) if in every feature the geometry is the last field; otherwise it loses fields that follow the geometry (a defect).", "quantifier": "every tile", "why_tests_cant": "all tiles", "anchors": ["mvt/read_tile.go:ReadTile", "mvt/read_tile.go:NewTile", "mvt/read_feature_lazy.go:Feature", "mvt/read_feature_lazy.go:ToGeoJSON"]}
{"id": "C32", "title": "Lazy reading is independent of call interleaving", "statement": "Feature(), LoadGeometry() and LoadGeometryRaw() calls on the layers and features of one tile, which share one buffer cursor, return the same results in every interleaving; Next/Feature visits each feature exactly once and Reset starts over.", "quantifier": "every call schedule", "why_tests_cant": "all interleavings", "anchors": ["mvt/read_feature_lazy.go:Feature", "mvt/read_feature_lazy.go:LoadGeometry", "mvt/read_feature_lazy.go:LoadGeometryRaw", "mvt/read_layer.go:Next", "mvt/read_layer.go:Reset"]}
{"id": "C33", "title": "Render round trip", "statement": "For every tile of well-formed layers that each end in a value, extent or version, whoever wrote it, NewTile(tile.Render()) has the same layers as tile, for every order the layer map is iterated in, also when repeated names left only some of the layers in the map (Mapbox tag scheme; with the LK scheme Render writes tags its own reader skips and the layers are lost).", "quantifier": "every tile of closed layers, every map order", "why_tests_cant": "all tiles and orders", "anchors": ["mvt/read_tile.go:Render", "mvt/read_tile.go:NewTile"]}
{"id": "C34", "title": "When the readers return", "statement": "NewTile, ReadTile, Feature and LoadGeometry turn panics into errors, and on every byte string in which no length on the way is negative they loop for ever exactly when they reach a layer in which an unknown field, or the end of the buffer, comes before the layer's end, or (ReadTile, Feature) a feature that runs past the end of the buffer; otherwise they return. LoadGeometry always returns. (So a truncated tile or an unknown field hangs the readers; a negative length can too.)", "quantifier": "every byte string", "why_tests_cant": "all byte strings; termination", "anchors": ["mvt/read_tile.go:NewTile", "mvt/read_layer.go:NewLayer", "mvt/read_feature_lazy.go:LoadGeometry"]}
{"id": "C35", "title": "Tile coordinates of a lon/lat point", "statement": "SinglePoint clamps to [0,extent] when asked; over exact arithmetic it gives a nearest grid coordinate (from 0 to the extent for a point of the tile), and projecting an integer grid coordinate to lon/lat and back returns it, for every tile and extent, unless the coordinate is beyond the top or bottom of the map, where it is clamped.", "quantifier": "every tile, extent, grid coordinate", "why_tests_cant": "all tiles and coordinates", "anchors": ["mvt/write_geometry.go:SinglePoint", "mvt/write_geometry.go:ConvertPoint", "mvt/write_geometry.go:ConvertCursor", "mvt/read_feature_lazy.go:Project"]}
{"id": "C36", "title": "Clipping stays in the slab", "statement": "Every point of the result of clipping a line or ring against [k1,k2] on an axis has that coordinate in [k1,k2], whatever the arithmetic used for the other coordinate; after clipping both axes all points lie in the tile box.", "quantifier": "every geometry and slab", "why_tests_cant": "all geometries", "anchors": ["mvt/clip.go:clipLine", "mvt/clip.go:Intersect", "mvt/clip.go:ClipTile"]}
{"id": "C37", "title": "Clipping a line is exact intersection", "statement": "Over exact arithmetic the set of points on the clipped polylines equals the set of points of the input polyline inside the slab.", "quantifier": "every polyline and slab", "why_tests_cant": "all polylines; infinite point sets", "anchors": ["mvt/clip.go:clipLine"]}
{"id": "C38", "title": "Clipped rings stay closed", "statement": "Clipping a closed ring yields at most one ring; if it has at least four points it is closed; a ring inside the slab comes back unchanged and one outside disappears.", "quantifier": "every ring and slab", "why_tests_cant": "all rings", "anchors": ["mvt/clip.go:clipLine", "mvt/clip.go:clipLines", "mvt/clip.go:LintPolygon"]}
{"id": "C39", "title": "Clipping a line to a tile", "statement": "ClipTile of a LineString is exactly the part of the line inside the tile when the line has one stretch in the tile's longitude range (for example when it never leaves that range), and is empty when it has none or several, even if the line meets the tile (a defect). A MultiLineString is always dropped, a polygon beside the tile panics, and ClipFeature makes features without geometry for child tiles a line misses.", "quantifier": "every feature and tile", "why_tests_cant": "all features", "anchors": ["mvt/clip.go:clip", "mvt/clip.go:ClipTile", "mvt/clip.go:makefeature", "mvt/clip.go:IsEmpty"]}
{"id": "C40", "title": "Point clipping assigns each point to one tile", "statement": "PointClipAboutZoom on a MultiPoint distributes every point to exactly the tile that Tile gives it, in order, no point lost or repeated; PointClipAboutTile keeps exactly the points of the tile. The TILEID label is right when all points lie in one tile; when they lie in two or more, some returned feature carries another tile's label, because the property map is shared.", "quantifier": "every multipoint and zoom, every map order", "why_tests_cant": "all point lists and map orders", "anchors": ["mvt/clip.go:PointClipAboutZoom", "mvt/clip.go:PointClipAboutTile"]}
{"id": "C41", "title": "Simplification guarantee", "statement": "Simplify only writes importance slots of interior points; every point it leaves unmarked is within the tolerance of the segment joining its neighbouring marked points (or end points); the importance of a marked point is above the tolerance and is its squared distance from the segment joining two marked or end points around it, the greatest of all points between them; it terminates and never indexes out of range.", "quantifier": "every coordinate array, range and tolerance", "why_tests_cant": "all inputs; recursion", "anchors": ["mvt/simplify.go:Simplify", "mvt/simplify.go:GetSqSegDist"]}
{"id": "C42", "title": "Point thinning", "statement": "Over any sequence of Filter calls with one config, at most one point feature per grid cell is kept, the first one of each cell is always kept, and once kept a cell never reopens; disabled filter keeps everything.", "quantifier": "every history of features", "why_tests_cant": "all histories", "anchors": ["mvt/feature_reduce.go:Filter"]}
{"id": "C43", "title": "Tile store is a map", "statement": "After any sequence of StoreTile calls ReadTile(z,x,y) returns the data of the last successful StoreTile with exactly these coordinates, nil without error if there was none; there is never more than one row per coordinate.", "quantifier": "every history of stores and reads", "why_tests_cant": "all histories", "anchors": ["mbtiles/mbtiles.go:StoreTile", "mbtiles/mbtiles.go:ReadTile", "mbtiles/mbtiles.go:CreateDB"]}
{"id": "C44", "title": "Metadata round trip", "statement": "GetMetadata after UpdateMetadata(m) returns m's text fields, zooms (when MaxZoom > 0), type, format, tile size and resolution factor, bounds and centre to 8 decimals, for every row order, and nothing of earlier metadata. (Version and attribution are false: they are never written.)", "quantifier": "every metadata value and previous content", "why_tests_cant": "all metadata, all row orders", "anchors": ["mbtiles/metadata.go:ToMap", "mbtiles/mbtiles.go:GetMetadata", "mbtiles/mbtiles.go:UpdateMetadata"]}
{"id": "C45", "title": "Metadata update survives a crash", "statement": "If the process stops at any point of UpdateMetadata the stored metadata is the old one, empty, or the new one, and nothing else; all three are reachable (a user would expect empty never to be, but the old rows are deleted before the transaction starts). An undisturbed run stores the new metadata; an error leaves old or empty; a failed commit is reported as success. Metadata whose format lies beyond the format table make it panic after the deletion, so the old metadata are lost.", "quantifier": "every crash point", "why_tests_cant": "crash points", "anchors": ["mbtiles/mbtiles.go:UpdateMetadata"]}
{"id": "C46", "title": "Tile format sniffing is deterministic", "statement": "detectTileFormat gives the same answer in every map iteration order, and recognises exactly the listed magic prefixes.", "quantifier": "every byte string and map order", "why_tests_cant": "all byte strings and orders", "anchors": ["mbtiles/mbtiles.go:detectTileFormat"]}
{"id": "C47", "title": "Format and layer-type tables", "statement": "StringToTileFormat(TileFormatToString(f)) == f for every format and stringToLayerType(layerTypeToString(t)) == t; unknown names give UNKNOWN, out-of-range formats panic. A user also expects the stored name to be the one TileFormat.String gives; it is exactly for UNKNOWN, LERC, TIFF, TERRAIN and TIF; PNG is stored as jpg, JPG as webp, PBF as gzib, WEBP as zlib, and the names other programs write are misread accordingly.", "quantifier": "every format", "why_tests_cant": "the whole table through both directions", "anchors": ["mbtiles/metadata.go:TileFormatToString", "mbtiles/metadata.go:StringToTileFormat", "mbtiles/mbtiles.go:TileFormat.String"]}
{"id": "C48", "title": "Pagination returns every page once", "statement": "ListStyles/ListTilesets return the concatenation, in order, of all pages reached by following next links, or an error and nothing if any page fails; every request carries the access token.", "quantifier": "every server behaviour with a finite chain", "why_tests_cant": "all page chains", "anchors": ["client/client.go:ListStyles", "client/client.go:ListTilesets", "client/client.go:do", "client/client.go:nextPageURL"]}
{"id": "C49", "title": "Next-page link parsing", "statement": "nextPageURL of a Link header with one <url>; rel=\"next\" entry is url, and nothing when the header has no next. (With several entries the greedy pattern joins them; without angle brackets it panics.)", "quantifier": "every Link header", "why_tests_cant": "all headers", "anchors": ["client/client.go:nextPageURL"]}
{"id": "C50", "title": "Numeric zoom functions", "statement": "GetValueAtZoomLevel returns the stop's value at each stop, the last value beyond the last stop and 0 below the first; between two stops it is the lower value plus the eased fraction of the absolute difference, so for increasing zooms and non-decreasing values it is monotone and between the neighbouring stops, while for decreasing values it leaves the interval.", "quantifier": "every stop list, base and zoom", "why_tests_cant": "continuum of zooms", "anchors": ["style/numeric_function.go:GetValueAtZoomLevel", "style/numeric_function.go:getNumericValueBetweenStops", "style/function.go:getExponentialPercentage"]}
{"id": "C51", "title": "Colour zoom functions", "statement": "GetValueAtZoomLevel of colour stops returns the stop's colour at each stop and beyond the last, nothing below the first, and between stops every channel lies between the two stops' channels, so the conversion to a byte never wraps.", "quantifier": "every colour stop list, base and zoom", "why_tests_cant": "continuum of zooms", "anchors": ["style/color_function.go:GetValueAtZoomLevel", "style/function.go:getValueThroughStop"]}
{"id": "C52", "title": "Hex colours", "statement": "#rrggbb parses to exactly its three bytes with opaque alpha for all 2^24 colours in either letter case, #rgb means #rrggbb, and every other '#' string is an error.", "quantifier": "every string starting with #", "why_tests_cant": "all strings", "anchors": ["style/colors.go:getHexColor", "style/colors.go:strToColor"]}
{"id": "C53", "title": "rgb()/rgba() colours", "statement": "rgb(r,g,b) and rgba(r,g,b,a) with any spacing parse to their bytes; components above 255 are errors; alpha 1 is opaque.", "quantifier": "every component triple and spacing", "why_tests_cant": "all strings of the grammar", "anchors": ["style/colors.go:getRGBColor", "style/colors.go:getRGBAColor"]}
{"id": "C54", "title": "Layer validation", "statement": "With both zooms given, Layer.Validate succeeds exactly when 0 <= minzoom <= maxzoom <= 24 and otherwise returns an error. With one or both absent it never succeeds: it panics, or returns an error if a maxzoom alone is outside 0..24.", "quantifier": "every pair of optional zooms", "why_tests_cant": "all zooms", "anchors": ["style/layer.go:Validate"]}
{"id": "C55", "title": "Style set", "statement": "NewStyleSet succeeds exactly when the ids are distinct and contain the default id; then GetStyleByID returns the style with that id, GetDefaultStyle the default one and GetAllStyleIDs each id once.", "quantifier": "every list of styles", "why_tests_cant": "all lists", "anchors": ["style/types.go", "style/styling.go:NewStyleSet", "style/style.go"]}
{"id": "C56", "title": "Filter parsing preserves structure", "statement": "Parsing a filter array succeeds with filter f exactly when the JSON has the shape of f: operator kept, sub-filters nested in order to any depth, and for class/subclass/$type comparisons all operands kept, a non-string operand being an error. Operands of every other property are dropped, and null, [] and a second element that is neither string nor array panic. On an error the container keeps its filter; a comparison unmarshalled directly is left with the new operator and the old category. A number beyond float64 anywhere in a filter is an error, even among dropped operands.", "quantifier": "every nested filter", "why_tests_cant": "unbounded nesting", "anchors": ["style/filter.go:unmarshalFilter", "style/filter.go:ComparativeFilter.UnmarshalJSON"]}
{"id": "C57", "title": "HSL/HSV conversion ranges", "statement": "NewHSLFromRGB/NewHSVFromRGB always give H in [0,360], S and L/V in [0,1]; RGBA of a valid HSL colour is in 0..65535 with equal high and low bytes; converting an RGB colour to HSL and back returns it for every grey and every colour with two equal channels, but not for every colour ((255,65,0) does not come back), since the hue formula is not the one inverted. NewHSVColor and NewHSLColor accept exactly components in range, or NaN.", "quantifier": "all 2^24 colours; all HSL colours", "why_tests_cant": "continuum", "anchors": ["style/colorextra/hsl.go", "style/colorextra/hsv.go", "style/colorextra/hue.go"]}
{"id": "C58", "title": "Struct tags to fields and properties", "statement": "StructToFields and StructToProperties of a struct agree on names for scalar fields, take exactly the tagged fields, and give each field the type of its kind; non-structs give nil.", "quantifier": "every struct type", "why_tests_cant": "all struct types", "anchors": ["tilejson/utils.go:StructToFields", "tilejson/utils.go:StructToProperties"]}
{"id": "C59", "title": "Sprite sheet pixels", "statement": "In the sheet a sprite generator writes, every sprite's pixels appear unchanged in the rectangle its JSON entry names, whatever order the map of sprites is iterated in.", "quantifier": "every set of sprites and map order", "why_tests_cant": "all sprite sets and orders", "anchors": ["sprite/sprite.go:GenerateSprite"]}
{"id": "C60", "title": "Clipped features stay in their tiles", "statement": "Every geometry ClipFeature returns under a tile lies inside that tile's bounding box, in every iteration order of its maps and with or without parents; only the unclipped input under its first tile is exempt.", "quantifier": "every geometry, end zoom and map order", "why_tests_cant": "all geometries, depths and orders", "anchors": ["mvt/clip.go:ClipFeature", "mvt/clip.go:ClipDownTile", "mvt/clip.go:makefeature"]}
{"id": "C61", "title": "Start tile of a feature", "statement": "GetFirstZoom returns the deepest zoom (at most 28) at which the four corners of the box lie in one tile, and that tile; if they still share a tile at zoom 29 the answer is the fixed tile 0/0/30 wherever the box is, and ClipFeature then files the feature under 0/0/30 and 0/0/endzoom.", "quantifier": "every bounding box", "why_tests_cant": "continuum of boxes", "anchors": ["mvt/clip.go:GetFirstZoom", "mvt/clip.go:ClipFeature"]}
{"id": "C62", "title": "hsl()/hsla() colours", "statement": "hsl(h,s%,l%) and hsla(h,s%,l%,a) strings with any spacing parse to the HSL colour with these components when hue is at most 360 and the percentages at most 100, and are errors otherwise; they never panic.", "quantifier": "every component triple and spacing", "why_tests_cant": "all strings of the grammar", "anchors": ["style/colors.go:getHSLColor", "style/colors.go:getHSLAColor", "style/colorextra/hsl.go:NewHSLColor"]}
{"id": "C63", "title": "Background colour and style version", "statement": "The background colour of a parsed style is white when its first layer does not have id \"background\", otherwise that layer's background-color at zoom 0; Validate accepts exactly version 8. (A background layer without paint panics in Parse.)", "quantifier": "every style", "why_tests_cant": "all layer lists", "anchors": ["style/style.go:calculateBackgroundColor", "style/style.go:Validate"]}
{"id": "C64", "title": "Drawing a glyph", "statement": "DrawGlyph of a glyph built with the default buffer 3 never panics and, without smoothstep, reproduces the bitmap as alphas; with smoothstep each alpha is 0 up to 168, the byte itself from 200 on, monotone between and never above the byte. (The ramp is 168..200, not the 136..168 its arguments name; a buffer below 3 panics.)", "quantifier": "every glyph", "why_tests_cant": "all bitmaps", "anchors": ["font/utils.go:DrawGlyph", "font/utils.go:alpha", "font/sdf_builder.go:Glyph"]}
{"id": "C65", "title": "Request addresses of the API client", "statement": "For a user name and style id that are plain path segments ListStyles, GetStyle, ListTilesets and GetTileJSON ask for styles/v1/user, styles/v1/user/id[/draft], tilesets/v1/user and v4/ids.json, with exactly the query parameters that were given. (Ids are not escaped: one with ../ leaves the user's directory.)", "quantifier": "every user, id list and parameter set", "why_tests_cant": "all strings", "anchors": ["client/client.go:ListStyles", "client/client.go:GetStyle", "client/client.go:ListTilesets", "client/client.go:GetTileJSON"]}
{"id": "C66", "title": "Tiles of other writers", "statement": "NewTile and Feature read every tile whose layers and features are well-formed messages, whoever wrote it: fields in any order, missing or repeated (the last of a repeated single field counts; repeated keys, values and features accumulate in order). Two exceptions: a layer followed by another one must not end in a name, key or feature (otherwise the bytes of the next layer are read as a key or feature of this one), and a sint_value is returned without zig-zag decoding.", "quantifier": "every sequence of layer messages, every field order, both tag schemes", "why_tests_cant": "all field orders and multiplicities", "anchors": ["mvt/read_tile.go:NewTile", "mvt/read_layer.go:NewLayer", "mvt/read_feature_lazy.go:Feature"]}
{"id": "C67", "title": "Elevation images", "statement": "The image DemEncode makes of a raster at the origin, loaded again, gives back every height within 0.1 m (Mapbox) or 1 m (Terrarium), the border one cell wide repeating the nearest cell. Save followed by Load of a DEM of opaque pixels gives the same DEM. Loading never panics; it fails exactly for images that are not square. (For an odd side it returns a nil DEM without an error; transparent pixels lose their height; a raster not at the origin loses cells.)", "quantifier": "every raster, image and DEM", "why_tests_cant": "all rasters and images", "anchors": ["raster/raster.go:LoadDEMDataWithStream", "raster/raster.go:Save", "raster/raster.go:DemEncode", "raster/raster.go:NewDEMData"]}
{"id": "C68", "title": "Clipping keeps the inside of polygons", "statement": "By the even-odd rule, the polygon ClipTile returns covers a point of the tile exactly if the input polygon (or multi-polygon, with holes, any self-intersections) does, and ClipFeature loses no part: every point covered by the polygon is covered by the geometry stored for its end-zoom tile; points within a small multiple of Power7 of an edge or tile border are exempt. ClipFeature does not panic and terminates for such polygons. (ClipFeature may add area: a triangle or quadrilateral whose bounding box is the tile's is taken for the whole tile. A clipped triangle corner is left as an open ring of three points.)", "quantifier": "every polygon, tile, end zoom, map order and point", "why_tests_cant": "continuum of polygons and points", "anchors": ["mvt/clip.go:ClipTile", "mvt/clip.go:clip", "mvt/clip.go:ClipDownTile", "mvt/clip.go:ClipFeature", "mvt/clip.go:LintPolygon"]}
{"id": "C69", "title": "Parsing a style", "statement": "Parse accepts a style document exactly when every member has the shape its field needs (and the background colour can be computed); then id, version, the layers in order with ids, zooms and filter, and every paint and layout property have the value written in the document: a number or colour is constant, a function has the stops and base in the order written, a missing or null property is absent. (A property of the wrong kind - boolean, array, a string for a number - and a stop without two entries panic instead of giving an error; any value for the light's colour is an error; a null colour stop parses and panics when evaluated; a number beyond float64 is an error wherever it is looked at, also inside metadata and unused properties, but not under an unknown name.)", "quantifier": "every JSON document", "why_tests_cant": "all documents", "anchors": ["style/style.go:Parse", "style/style.go:calculateBackgroundColor", "style/numeric_function.go:UnmarshalJSON", "style/numeric_stop_type.go:UnmarshalJSON", "style/colors.go:UnmarshalJSON", "style/color_function.go:UnmarshalJSON", "style/layer.go:Layer", "style/paint.go:Paint", "style/layout.go:Layout"]}
{"id": "C70", "title": "UTF grids", "statement": "ReadGrid gives, for a tile with a grid and key rows, a grid compressed like the tileset's, with the members of the stored grid except data, which maps every key name to the JSON of its row; a grid without key rows as stored; nil for a tile without grid; an error for a tileset without UTF grids. NewDB finds UTF grids exactly when all five tables exist and there is a sample. (A grid that is not a JSON object panics; rows that are not JSON objects count as empty ones.)", "quantifier": "every tileset, tile and key table", "why_tests_cant": "all tables and grids", "anchors": ["mbtiles/mbtiles.go:ReadGrid", "mbtiles/mbtiles.go:NewDB"]}
{"id": "C71", "title": "Life of a tileset file", "statement": "In every history of a file - attempts to create and open it, stores, metadata updates, failures and crashes at any point - a stored tile stays readable with exactly its data until the next successful store at its coordinates, CreateDB succeeds at most once, and a file whose tiles all are of one recognisable kind opens as that kind. (A creation interrupted after its first statement, or a tileset closed without a tile, leaves a file that neither CreateDB nor NewDB ever accepts; the format given to CreateDB is not kept; its metadata error is dropped; in a foreign file without unique index overwriting is lost.)", "quantifier": "every history of calls and crashes", "why_tests_cant": "all histories and crash points", "anchors": ["mbtiles/mbtiles.go:CreateDB", "mbtiles/mbtiles.go:NewDB", "mbtiles/mbtiles.go:StoreTile", "mbtiles/mbtiles.go:ReadTile", "mbtiles/mbtiles.go:UpdateMetadata"]}
{"id": "C72", "title": "Lon/lat features written to a tile and read back", "statement": "Write layers of lon/lat features with WriteLayer, concatenate them, read the tile and convert each feature with ToGeoJSON for its tile: the layers and features come back in order with name, extent, id and properties, and every geometry comes back with the same parts and each position moved to the nearest grid point, that is by at most half a grid cell in each direction (with ExtentBool first moved into the tile, where it then stays); consecutive positions on one grid point merge, rings are closed, outer rings run clockwise and holes the other way. ReadTile, if no feature without id (or with id 0) follows one of its layer with an id, returns the same features with the property layer set to the layer's name, and ReadRawTile the same with geometries on the grid. (A point within half a cell of the north-west corner and multi-points of two or more positions are lost, flat outer rings merge polygons, empty lines and rings panic.)", "quantifier": "every tile, extent, configuration, layer list and geometry", "why_tests_cant": "continuum of positions, all geometries and layer lists", "anchors": ["mvt/write_layer.go:WriteLayer", "mvt/write_layer.go:NewLayerConfig", "mvt/write_feature.go:AddFeature", "mvt/write_geometry.go:MakeLineFloat", "mvt/write_geometry.go:MakeMultiLineFloat", "mvt/write_geometry.go:MakePointFloat", "mvt/write_geometry.go:MakePolygonFloat", "mvt/write_geometry.go:SinglePoint", "mvt/read_feature_lazy.go:ToGeoJSON", "mvt/read_feature_lazy.go:LoadGeometry"]}
{"id": "C73", "title": "Scaled geometry", "statement": "LoadGeometryScaled(dim) and ConvertGeometry keep the kind of a geometry and the number and order of its parts and positions and replace every coordinate by the rounded quotient by dim; a nil geometry gives an empty one, and the error of LoadGeometry is passed on.", "quantifier": "every geometry and dim", "why_tests_cant": "all geometries", "anchors": ["mvt/read_feature_lazy.go:LoadGeometryScaled", "mvt/read_feature_lazy.go:ConvertGeometry"]}
{"id": "C74", "title": "Distances and names of positions", "statement": "Distance gives the length of the great-circle arc between two positions on a sphere of 3963.190592 miles radius, for any coordinates: symmetric, 0 exactly for the same point, at most half the circumference, never longer than a detour. CreateMap holds exactly the given tiles, each once. Tile_Geohash of a position on the map is a text that Strtile reads back as the tile containing the position.", "quantifier": "every pair of positions, tile list and zoom", "why_tests_cant": "continuum of positions", "anchors": ["tile_cover/line_corner_case.go:Distance", "tile_cover/tile_cover.go:CreateMap", "tileid/tileid.go:Tile_Geohash"]}
{"id": "C75", "title": "Tiles and boxes in float64", "statement": "In float64 arithmetic, with functions of package math accurate to 2^-50: Tile gives the tile a position lies in unless the position is within 2^-41 of the map's width of an edge; Bounds is within 2e-12 degrees of the exact box; up to zoom 35 boxes have positive size, the tile of a tile's centre is the tile and Parent inverts Children. Whatever the math functions compute, boxes of neighbours and of children meet bit for bit, without gaps or overlaps (zoom up to 49). Under the same conditions the text of Tile_Geohash reads back as the tile the position lies in, and PolygonTile is one closed ring within 2e-12 degrees of the exact one, up to zoom 35 a clockwise rectangle of positive size; rings of neighbours share the two points of their common edge bit for bit.", "quantifier": "every tile and float64 position, every math library of that accuracy", "why_tests_cant": "all float64 positions and tiles", "anchors": ["tileid/tileid.go:Ul", "tileid/tileid.go:Bounds", "tileid/tileid.go:Tile", "tileid/tileid.go:Center", "tileid/tileid.go:Parent"]}
{"id": "C76", "title": "Lon/lat and grid coordinates in float64", "statement": "In float64 arithmetic, with functions of package math accurate to 2^-50, for every tile and extent with extent times 2^zoom at most 2^34 (extent 4096: zoom 22): SinglePoint gives a grid point at most 0.51 units from the position's place in the tile's grid (positions up to two tiles away, latitudes beyond the map counted at its edge), in 0..extent for positions in the tile, and with ExtentBool always; ToGeoJSON's position of a grid point is within 5e-13 degrees of the exact one; a grid point converted to lon/lat and back is itself; a position written and read moves at most 0.52 units.", "quantifier": "every tile, extent, float64 position and grid point, every math library of that accuracy", "why_tests_cant": "all float64 positions", "anchors": ["mvt/write_geometry.go:ConvertPoint", "mvt/write_geometry.go:ConvertCursor", "mvt/write_geometry.go:NewCursorExtent", "mvt/write_geometry.go:SinglePoint", "mvt/read_feature_lazy.go:Project", "mvt/read_feature_lazy.go:ToGeoJSON"]}
{"id": "C77", "title": "Features of a tile map", "statement": "NewFeatures gives one feature for each tile of the map, in any map order: the geometry of the tile, every given property, TILEID the tile's name (which Strtile reads back as the tile, so tile and feature correspond one to one) and COLORKEY white; NewFeature keeps the geometry and every property except COLORKEY. TrimMultiPolygon(Float) closes every ring and changes nothing else. (Properties TILEID and COLORKEY of the user are overwritten; feature ids are not kept.)", "quantifier": "every tile map, geometry, property map and iteration order", "why_tests_cant": "all maps and orders", "anchors": ["mvt/clip.go:NewFeature", "mvt/clip.go:NewFeatures", "mvt/write_geometry.go:TrimMultiPolygon", "mvt/write_geometry.go:TrimMultiPolygonFloat", "mvt/proto.go:getProto"]}
{"id": "C78", "title": "Default reduction of a tile", "statement": "With the configuration NewReduceConfig(tile), Filter keeps of a sequence of point features (multi-points by their centroid) exactly the first in each cell of the grid that divides the tile into 256 by 256 cells, so at most 65536 inside the tile; a line or polygon feature exactly if its bounding box is wider than 0.5 % of the tile's width or higher than 0.5 % of its height.", "quantifier": "every tile (zoom up to 50) and sequence of features", "why_tests_cant": "all sequences", "anchors": ["mvt/feature_reduce.go:NewReduceConfig", "mvt/feature_reduce.go:Filter"]}
{"id": "C79", "title": "Settings of the glyph builder", "statement": "NewSDFBuilder takes font size and buffer each from the last option that sets it (non-zero), else 64 and 3; without a buffer option every drawable glyph has a bitmap of (width+6)*(height+6) bytes, which DrawGlyph shows unchanged; the baseline splits the line gap evenly. Coverage fails exactly if a font cannot be parsed and otherwise reports every language, in order, against the parsed fonts.", "quantifier": "every option list, font, metrics and font list", "why_tests_cant": "all option lists and fonts", "anchors": ["font/sdf_builder.go:NewSDFBuilder", "font/sdf_builder.go:Init", "font/cover.go:Coverage", "font/cover.go:CoverageTTFS"]}
{"id": "C80", "title": "Tiles of lon/lat features in float64", "statement": "In float64 arithmetic: write layers of lon/lat features with WriteLayer, concatenate them, read the tile and convert each feature with ToGeoJSON for its tile: whatever package math computes, layers and features come back in order with name, extent, version, id and properties, and every geometry with the same parts, each position replaced by the position of the grid point it was written as; with functions of package math accurate to 2^-50 that is at most 0.52 of a grid cell from where the position should go (its place, or with ExtentBool the nearest place within the tile), for positions up to one tile away. ReadTile and ReadRawTile (grid points instead of positions) return the same with the property layer added, if no feature without id (or with id 0) follows one of its layer with an id. With the default configuration, or any with ExtentBool and an extent up to 32767, no line, polygon, multi-line or multi-polygon without empty parts and flat outer rings is refused.", "quantifier": "every tile, extent, configuration, layer list, float64 geometry and math library", "why_tests_cant": "all float64 positions, geometries and layer lists", "anchors": ["mvt/write_layer.go:WriteLayer", "mvt/write_feature.go:AddFeature", "mvt/write_geometry.go:SinglePoint", "mvt/read_feature_lazy.go:ToGeoJSON", "mvt/read_feature_lazy.go:Project"]}
{"id": "C81", "title": "Numbers in tile names", "statement": "Strtile reads \"a/b/c\" for any three Go integer literals - decimal, 0b, 0o, 0x or zero-prefixed octal, with sign and underscores - as the tile of their values, each replaced by the nearest int64 (zoom as its unsigned reading); TileFromString does the same for unsigned literals between any of its delimiters. Any other text counts as 0 (or, 17 characters or longer, possibly as a bound of int64), so a zero-padded number is octal and 0 if it has a digit 8 or 9; Strtile panics exactly for fewer than two slashes.", "quantifier": "every text", "why_tests_cant": "all literals in all notations", "anchors": ["tileid/tileid.go:Strtile", "tileid/tileid.go:TileFromString"]}
{"id": "C82", "title": "Metadata written by other tools", "statement": "GetMetadata on any table of names and values: every text field is that of the last non-empty row of its name; the type is overlay exactly for the text overlay; zooms are the decimal integers of the rows (sign and leading zeros allowed), or, if the largest is missing or 0, the smallest and largest zoom of the tiles; centre and bounds are the comma-separated numbers in any decimal notation with spaces around, each rounded to float64, missing ones 0; tile size, resolution factor and layer data likewise; fields without a row are zero. It succeeds if all rows of the known names are readable and there are tiles or a largest zoom, and fails if a zoom is not a 64-bit integer, a list is too long, or layer data does not decode; of a list that is not well formed only a bad last component is an error, an earlier one reads as 0. Several json rows are decoded one over the other in order, and a NULL value is never read as text: it is an error or another row's panic, never a result.", "quantifier": "every table of rows, every order and multiplicity, all numerals", "why_tests_cant": "all tables and numerals", "anchors": ["mbtiles/mbtiles.go:GetMetadata", "mbtiles/metadata.go:stringToBounds", "mbtiles/metadata.go:stringToCenter", "mbtiles/metadata.go:stringToTileSize", "mbtiles/metadata.go:stringToResFactor"]}
{"id": "C83", "title": "Tiles that end badly", "statement": "If the bytes are layers written with this package followed by anything at all, then whenever NewTile returns, with or without an error, its tile begins with all these layers, complete and in order; and whenever ReadTile returns, its features begin with those of these layers (features with type and geometry, none without id after one of its layer with an id). Each returns an error exactly if the bytes cannot be read to the end (ReadTile also if there is no feature). The same holds for layers of any other writer, whose layers but the last are closed and whose last ends with its version. If reading fails in a layer whose name could be read, the tile's name list has this name although no layer of the tile has it. ReadRawTile on bytes that cannot be read to the end returns no features, no points and no error; otherwise the features of the bulk reader in tile coordinates and the north-west and south-east corners of the tile, whatever the extents, with an error exactly if there is no feature.", "quantifier": "every list of layers, every byte string after them, every tile", "why_tests_cant": "all byte strings", "anchors": ["mvt/read_tile.go:NewTile", "mvt/read_tile.go:ReadTile", "mvt/read_tile.go:ReadRawTile"]}
{"id": "C84", "title": "ClipFeature of lines", "statement": "ClipFeature of a LineString on the map, to an end zoom (up to 30) deeper than its first tile: terminates without panic; the line lies in the first tile; the entries are for distinct descendants of it (without parents only of the end zoom); an entry's geometry is exactly the part of the line in its tile, or missing; every such tile the line meets has an entry and the end-zoom tiles reach every point of the line; a line that never turns back in longitude or latitude (every segment) loses nothing. Otherwise parts can be lost (a defect): a child in whose longitudes the line has several stretches gets an entry without geometry, and of a MultiLineString nothing but the first tile's own entry keeps a geometry. A line whose first tile is at the end zoom or deeper is stored whole under that tile and its ancestor at the end zoom.", "quantifier": "every line and multi-line on the map, end zoom, keep-parents flag and map iteration order", "why_tests_cant": "all lines, zooms and map orders", "anchors": ["mvt/clip.go:ClipFeature", "mvt/clip.go:ClipDownTile", "mvt/clip.go:clip", "mvt/clip.go:clipLine", "mvt/clip.go:GetFirstZoom"]}
{"id": "C85", "title": "Sprite sizes in float64", "statement": "With float64 arithmetic the width and height GenerateSprite gives an image are its size times wanted over own pixel ratio with the fraction cut off, except that an exactly whole result may come out one pixel smaller (45 pixels at ratio 5 wanted at 7 give 62, not 63); they are exact if the own ratio is a power of two or divides the wanted one, so an image of the wanted ratio keeps its size; a larger image never gets a smaller sprite. With these sizes the sheet is as in C15: every image placed, no overlaps, nothing outside.", "quantifier": "every list of images with sizes below 2^28, wanted ratio below 8, own ratio below 2^53", "why_tests_cant": "all sizes and ratios", "anchors": ["sprite/sprite.go:ScaleTo", "sprite/sprite.go:GenerateSprite"]}
{"id": "C86", "title": "Clipping in float64", "statement": "With float64 arithmetic, for coordinates up to 400, clipping a line to a slab gives the same number of pieces with the same number of vertices as exact arithmetic, each vertex the same along the axis and at most 2^-39 off across it; so the result is the part of the line in the slab up to 2^-39, in both directions. Every vertex ClipTile or the subdivision into children produces, for any kind of geometry, has its latitude exactly in the tile's range and its longitude up to 2^-39 in the range (and it can really be outside: shown). ClipTile of a line with one stretch in the longitude range is the part of the line in the tile up to 2^-39, parts within 2^-39 of the northern and southern edge aside; any other line is dropped, as with exact arithmetic.", "quantifier": "every geometry and every box with float64 coordinates up to 400", "why_tests_cant": "all coordinates, and rounding can push a point over an edge", "anchors": ["mvt/clip.go:IntersectX", "mvt/clip.go:IntersectY", "mvt/clip.go:clipLine", "mvt/clip.go:ClipTile", "mvt/clip.go:ClipDownTile"]}
{"id": "C87", "title": "Closing rings in the caller's memory", "statement": "LintPolygon, TrimPolygon(Float) and their multi-polygon forms work in the caller's memory. If no two rings share cells of an array (up to capacity) the caller's polygon afterwards has the rings of the value model, each closed, and no other slice in memory reads differently; an empty ring panics. Clipping leaves the caller's polygon unchanged exactly if every ring ends with its first point, and clipping the changed polygon again gives the same result as clipping the original. If rings share one array and an open ring has spare capacity, closing it overwrites the first point of the next ring.", "quantifier": "every memory, every list of rings, every growth policy of append", "why_tests_cant": "aliasing and capacity depend on how the caller built the slices", "anchors": ["mvt/clip.go:LintPolygon", "mvt/clip.go:LintMultiPolygon", "mvt/write_geometry.go:TrimPolygon", "mvt/write_geometry.go:TrimPolygonFloat", "mvt/write_geometry.go:TrimMultiPolygonFloat"]}
{"id": "C88", "title": "Distance field in float64", "statement": "The distance transform and CalcSDF in float64, every operation rounded. For a grid with sides 2..4096 and seeds in [0,1] or INF there is no panic; each pixel is the root of a value within (w+h)/2^24 + 2^-25 of the least squared distance plus seed, or at least 10^20 when no seed is finite; for masks without grey pixels the squared distances are exact. With Glyph's radius and cutoff and a square root with float64's relative error, the bytes differ by at most 1 from those of exact arithmetic for images up to 1024x1024, and up to 4096x4096 a pixel covered at least half gets at least 191, one covered at most half at most 191.", "quantifier": "every size in range, every seed grid or alpha mask, every content of the work slices", "why_tests_cant": "rounding of the envelope's intersections depends on every combination of seeds, and 1e20 absorbs small terms", "anchors": ["font/sdf_builder.go:CalcSDF", "font/sdf_builder.go:edt", "font/sdf_builder.go:edt1d"]}
{"id": "C89", "title": "Point in polygon in float64", "statement": "Pip in float64, every operation rounded: it panics exactly when a ring is empty; closing a ring or not, starting it elsewhere and the order of the rings do not matter; a point more than 2^-42 degrees (horizontally) from every slanted edge gets the answer of exact arithmetic; rings of horizontal and vertical edges, rectangles among them, are treated exactly as half-open sets; a point north, south or east of all vertices, or more than 2^-42 degrees west of them, is outside; triangles separate inside and outside up to that margin. Two things true of exact arithmetic are false here: reversing a ring can change the answer, and a point just west of every vertex can be found inside.", "quantifier": "every list of rings with longitudes within 180 and every point", "why_tests_cant": "rounding of the intersection depends on every combination of four coordinates", "anchors": ["tile_cover/tile_cover.go:Pip"]}
{"id": "C90", "title": "Tile cover in float64", "statement": "GetTilesPolygon and GetTilesLine in float64, for every math library within a stated accuracy. The bounding box is exact; the cover of a polygon is, without repeats, exactly the tiles in the box's range that hold the box, have a corner inside by Pip or hold a vertex; it has the tile of every vertex of a closed outer ring whose latitude is not within 2^-41 of the map's height of a row edge; every tile of it holds the polygon, holds a vertex or has a point of the exact polygon within 2e-12 degrees of a corner, and conversely a tile with a clearly inside corner is there. The cover of a line repeats no tile, has the zoom, starts with the first vertex's tile, has every vertex's tile, and does not depend on map order; a segment along a parallel misses no tile up to zoom 31 unless its length is within 1e-11 degrees of a tile's width; one along a meridian taken for longer than a tile misses no row up to zoom 27. Every tile of a line's cover up to zoom 30, latitudes within 85, is that of a vertex or of a point within 1e-11 degrees of the line through two consecutive vertices, at most 1.002e-7 degrees, along an axis, beyond the segment. The covers of multi-lines and multi-polygons are those of the parts in order, each tile where it is first seen.", "quantifier": "every polygon or line, zoom in range, map order and accurate math library", "why_tests_cant": "all coordinates, roundings and map orders", "anchors": ["tile_cover/tile_cover.go:GetTilesPolygon", "tile_cover/tile_cover.go:TilePolygon", "tile_cover/tile_cover.go:GetTilesLine", "tile_cover/line_corner_case.go:BetweenTiles", "tile_cover/line_corner_case.go:Interpolate"]}
{"id": "C91", "title": "Simplification and thinning in float64", "statement": "With coordinates at most M in absolute value and every operation rounded to float64: GetSqSegDist is within M^2/2^44 of the exact squared distance to the segment; Simplify terminates without panic and changes only importances of interior points; measured exactly, every unmarked point is within the squared tolerance plus M^2/2^44 of the segment joining its marked neighbours, and the importance of a marked point is above the tolerance and within M^2/2^44 of its exact squared distance from a segment joining two kept points around it, no point between being farther by more than M^2/2^43. The mean Filter computes for a multi-point of n points is within (n+2)M/2^53 of the exact mean.", "quantifier": "every coordinate array, range, tolerance and bound M; every multi-point of at most 2^32 points", "why_tests_cant": "all inputs; rounding errors accumulate through a quotient and a sum of any length", "anchors": ["mvt/simplify.go:Simplify", "mvt/simplify.go:GetSqSegDist", "mvt/feature_reduce.go:Filter"]}
{"id": "C92", "title": "Covering a polygon leaves the caller's polygon alone", "statement": "TileCover and Pip close rings in memory of their own as far as the caller can see: if the rings of a polygon (or of all polygons of a multi-polygon) share no memory, counting spare capacity, the tiles are those of the points the rings hold and afterwards every ring, and every slice apart from them, reads as before; if every ring starts and ends at one longitude the memory is not written at all, and if no ring has spare capacity none of the caller's arrays is, wherever the rings lie. Rings cut out of one flat list are the exception: an open ring with spare capacity overwrites the first point of the ring behind it in the caller's polygon, and Pip answers for the damaged polygon (a point outside a hole is taken to be in it).", "quantifier": "every memory layout of the rings, every growth rule of append, polygons and multi-polygons of any size, zoom, exact arithmetic and float64", "why_tests_cant": "memory layouts and capacities are unbounded; a test sees its own literals, which have no spare capacity", "anchors": ["tile_cover/tile_cover.go:Pip", "tile_cover/tile_cover.go:TilePolygon", "tile_cover/tile_cover.go:GetTilesPolygon", "tile_cover/tile_cover.go:TileCover"]}
{"id": "C93", "title": "Glyph files", "statement": "A Glyphs message whose required fields are set (what SDFBuilder.Glyphs returns always is) is written by proto.Marshal without an error and proto.Unmarshal gives back exactly it: stacks and glyphs in order, ids, sizes, signed offsets, advances, bitmaps, nil and empty bitmaps told apart, unknown fields included. A file of any other protobuf writer, with fields in any order, repeated or unknown, is read as the last value of each field, and refused exactly if a required field is missing (the rest is then still returned); whatever was read can be written again, takes no more space and reads the same; files put one after the other are one file with all stacks; a file of one stack cut short anywhere is refused (unless nothing is left). (A value beyond 32 bits is cut; a field of the wrong wire type is no error but missing.)", "quantifier": "every message, every sequence of wire fields, every byte sequence that is read, every cut", "why_tests_cant": "byte-level format: all messages, all field orders and all truncation points", "anchors": ["font/glyph.pb.go:Glyph", "font/glyph.pb.go:Fontstack", "font/glyph.pb.go:Glyphs", "font/glyph.proto", "font/sdf_builder.go:Glyphs"]}
{"id": "C94", "title": "JSON documents", "statement": "A value of any of the document types (tilejson.TileJSON, VectorLayer and Tileset, recipe.Recipe, client.ListStyle, mbtiles.LayerData and Metadata, the languages NewFontCoverage takes and the coverage it reports) that is marshalled to JSON and decoded again, as GetTileJSON, ListTilesets, ListStyles, GetMetadata and NewFontCoverage decode, is the same value: every text, number, coordinate, list, map and date with its nanoseconds and time zone. Only empty lists of omitempty fields come back as nil, a pointer to a nil list of layers as a nil pointer, and Go integers inside interface{} as the nearest float64. A TileJSON document has exactly the members of TileJSON 2.2.0 plus the package's own, nil as null. The documents of listed styles and tilesets, languages, coverages, layer data and metadata (through a pointer) have exactly the members of their kind, in order, leaving out what the tags allow to be left out when it is empty; dates and coordinates are always there. Writing a listed style or tileset is an error exactly when one of its dates cannot be written, and metadata with a layer type other than the two is an error. Reading does not depend on the order of members, ignores members with other names, does not mind upper case in names, and for a repeated name takes the last value. A zoom that is not a whole number from 0 to 2^64-1, a tile size not below 2^32, or a text field that is not a text makes GetTileJSON return an error and the zero TileJSON. Metadata of an overlay marshalled by value cannot be read back (its type is written as the number 1); through a pointer it can.", "quantifier": "every value of these types within the ranges of its Go types, every document", "why_tests_cant": "needs all values and all documents: any order, repetition and spelling of members", "anchors": ["tilejson/tilejson.go:TileJSON", "tilejson/tilejson.go:VectorLayer", "tilejson/tilejson.go:Tileset", "recipe/recipe.go:Recipe", "client/types.go:ListStyle", "client/client.go:GetTileJSON", "client/client.go:do", "mbtiles/metadata.go:LayerData", "mbtiles/metadata.go:Metadata", "mbtiles/mbtiles.go:LayerType.MarshalJSON", "mbtiles/mbtiles.go:LayerType.UnmarshalJSON", "font/cover.go:NewFontCoverage", "font/cover.go:LanguageCodePoints"]}
{"id": "C95", "title": "JSON texts are read exactly when they are JSON, and what is written is read back", "statement": "Every text read by encoding/json for this library (TileJSON, tileset and style pages, font and language lists, recipes, the metadata's json row) is accepted exactly when it is a JSON text of RFC 8259 with arrays and objects nested at most 10000 deep, and then stands for the one value the RFC's grammar gives it (white space, escapes, surrogate pairs, numbers); a decoder reading a response body takes the first value and ignores the rest; an array or object cut short anywhere is refused, so a truncated download never gives a document. What is written is a JSON text for the value, on one line, never contains the characters <, >, &, U+2028, U+2029 or a control character, and is read back as the same value. Whence, as texts: TileJSON, listing pages, recipes, languages, layer data and metadata survive being written and read, and metadata stored in an mbtiles file comes back with its layer data; two json rows that are objects read as one object with the members of both.", "quantifier": "all texts (lists of characters), all JSON values, all valid documents of each type, all suffixes after a document, all cut points, all orders of rows in the metadata table", "why_tests_cant": "The set of texts is infinite, and the claim is about exactly which are accepted and that no two readings exist; a test can only sample texts.", "anchors": ["client/client.go: Client.do, ListTilesets, GetTileJSON", "tilejson/tilejson.go: TileJSON", "mbtiles/mbtiles.go: GetMetadata (409)", "mbtiles/metadata.go: ToMap (66)", "font/cover.go: NewFontCoverage"]}
{"id": "C96", "title": "Which JSON documents are accepted, and what their values become", "statement": "A TileJSON answer, a page of tilesets or styles, a recipe, a list of languages, the json entry of an mbtiles file and a metadata document are each accepted exactly when the document has the shape of its type: a member that is missing, null or unknown never matters, a known one (names compared without regard to case) must have the kind of value its name calls for, whole numbers must be in range, other numbers must round to a finite float64, also inside free-form values, only the first four bounds and three centre coordinates are looked at, dates must be dates, and a layer type may not be null. As texts, server answers and languages are accepted exactly when they begin with such a value (anything may follow), the others exactly when they are one such value and white space, in both cases nested at most 10000 deep. On a refused document GetTileJSON gives an error and the zero value. From an accepted one bounds and centre are the float64 nearest to the numbers given (ties to even, subnormals included), 0 where the list is too short; texts and lists that may be nil are the last ones given or nil; null under the name of a plain field is as good as nothing; the fields of a layer hold, for every name, the last text given under it.", "quantifier": "every JSON document with well-spelled numbers; every text; every position and spelling of a member", "why_tests_cant": "Acceptance is an iff over all documents, with arbitrary nesting, repeated, unknown and differently capitalised members and all spellings of numbers and dates; tests try a handful of documents.", "anchors": ["client/client.go: GetTileJSON, ListTilesets, ListStyles", "tilejson/tilejson.go: TileJSON, VectorLayer, Tileset", "client/types.go: ListStyle", "font/cover.go: NewFontCoverage", "mbtiles/metadata.go: Metadata, LayerData", "mbtiles/mbtiles.go: LayerType.UnmarshalJSON, GetMetadata"]}
{"id": "C97", "title": "Which style texts are parsed, and into what", "statement": "style.Parse succeeds exactly when its input begins, after white space, with a JSON document, nested at most 10000 deep, that is an acceptable style (every member, matched up to case, has the kind of value its name calls for; version and transition times must be spelled as ints, so 8.0 is refused) and whose background colour can be computed; what follows the document does not matter. The result is the style the document describes and its background. A document that is cut short or nested too deeply is an error, never a panic or a style. When a member is given more than once the last non-null id and version count, and a repeated paint or layout is merged member by member.", "quantifier": "every text (list of characters), every JSON document, every spelling of numbers, strings and white space, every prefix of a document", "why_tests_cant": "there are infinitely many texts for a document, and acceptance has to be shown both ways: each acceptable text is parsed and no other is", "anchors": ["style/style.go: Parse, Style, calculateBackgroundColor", "style/layer.go: Layer, Light, Source, Transition", "style/paint.go: Paint", "style/layout.go: Layout", "style/colors.go: ColorType.UnmarshalJSON", "style/numeric_function.go: NumberOrFunctionWrapperType.UnmarshalJSON"]}
{"id": "C98", "title": "JSON as bytes, and UTF grids as JSON", "statement": "Wherever the library reads JSON from bytes (server answers, style files, language lists, the json entry, grids and key rows of an mbtiles file) it reads UTF-8, taking U+FFFD for each byte that begins no character, and accepts exactly the bytes whose characters are a JSON text (or begin with one); what it writes is well-formed UTF-8 that is read back as the same document. The bytes of an array or object cut short anywhere, even inside a character, are refused. ReadGrid answers, compressed like the stored grid, the UTF-8 of one JSON object with each name once: the members of the stored grid with the last value of each name (texts, truth values and structure the same, numbers the same float64) and under data an object giving for every key name the JSON object, or null, of its last row; a row that is no single JSON object or null (also one with something behind the object) counts as an empty object.", "quantifier": "every byte string, every document, every grid and set of key rows", "why_tests_cant": "all byte strings, all documents, all cut points", "anchors": ["client/client.go:do", "style/style.go:Parse", "font/cover.go:NewFontCoverage", "mbtiles/mbtiles.go:ReadGrid", "mbtiles/mbtiles.go:GetMetadata"]}
{"id": "C99", "title": "Calls of the API client from arguments to results", "statement": "Whatever the user name, the ids and the token are, the first request of ListStyles, GetStyle, ListTilesets and GetTileJSON is a legal address of api.mapbox.com that is decoded to the path asked for, and its parameters are the token and those given (a limit in decimal); nothing can add a query, a fragment, a blank or a line break. GetTileJSON returns the TileJSON the server marshalled, ListStyles and ListTilesets what the linked pages hold, in order, one request per page; GetStyle returns a style exactly when the answer begins with JSON for it. (The status is not looked at: a 404 with a JSON object makes GetTileJSON return an empty value and no error.)", "quantifier": "all user names, ids, tokens and parameters, as byte strings; all networks (functions from the requests so far to answers), all chains of pages of any length", "why_tests_cant": "a test sees a few names and one recorded server; injection into the request and the loss of pages depend on all byte strings and all chains of answers", "anchors": ["client/client.go: ListStyles, GetStyle, ListTilesets, GetTileJSON, do, addAuthentication, nextPageURL", "client/types.go: ListStyle", "tilejson/tilejson.go: ListTilesetsParams, Tileset, TileJSON"]}
{"id": "C100", "title": "The sprite index file", "statement": "The map that GenerateSprite returns, written with encoding/json as the index file of a sprite and read by a client, has exactly the names of the textures; the entry of each is one object with the texture's id if it has one, its scaled width and height, the pixel ratio and its place, all integers, and nothing else. Read back, every entry is what was written (but for the name, which is only the key), every rectangle lies on the sheet and no two share a pixel. Members an entry does not know are ignored; an entry with only a place has no texture of its own.", "quantifier": "all sets of textures with distinct names and any strings as names and ids, all sizes and places that fit a Go int, all admissible results of the unstable sort, all unknown members", "why_tests_cant": "the index is only useful if every name and every rectangle survives the text; embedded pointers, omitted members and escapes in names depend on all inputs", "anchors": ["sprite/sprite.go: TextureSprite, TextureMeta, GenerateSprite"]}
{"id": "C101", "title": "Drawing the glyphs of a file", "statement": "DrawGlyph of any glyph message returns an image exactly if the glyph has a width and a height and its bitmap has a byte for every pixel of the glyph with a border of three pixels; otherwise it panics. The image has that size and shows the first bytes of the bitmap, row by row: as they are, or through a ramp that in float64 is for every byte exactly the integer part of the smooth step from 168 to 200, rises and never exceeds the byte. Glyphs made with the default border, written to a glyph file and read again, are all drawn and show the whole distance field.", "quantifier": "all glyph messages (any sizes up to 2^32, wrapped, any bitmap, missing fields), both modes, all fonts", "why_tests_cant": "whether the drawing runs out of the bitmap depends on all sizes and lengths of files of any writer; float64 rounding could move any of the bytes", "anchors": ["font/utils.go: DrawGlyph, alpha", "font/glyph.pb.go: Glyph"]}
{"id": "C102", "title": "Addresses of further pages", "statement": "A Link header that names an http or https address (RFC 3986: host and port, path, query, fragment) for the next page makes ListStyles and ListTilesets send the next request to exactly that address, byte by byte up to the query, with the address's parameters and the token; so the lists hold all the linked pages in order. What is sent is parsed by the library as what was meant, for these and for the first requests. An address the library refuses (control characters, broken percent-encodings in the path, a leading colon) ends the list silently; an address without a host is not completed; two links in one header are taken for one address; the token is sent to whatever host a page names.", "quantifier": "all addresses of the grammar, all Link headers with one address, all tokens and queries, all chains of pages, all networks", "why_tests_cant": "which bytes survive parsing and printing of an address depends on all byte strings; a test has one recorded Link header", "anchors": ["client/client.go: nextPageURL, do, addAuthentication, ListStyles, ListTilesets"]}
{"id": "C103", "title": "Properties and ids through clipping", "statement": "ClipTile and ClipFeature of a line or polygon return features with the property map and the id of the one they are given, and change no property map. Of a point they return the caller's own feature, of a multi-point new features with the caller's own property map and without its id; in both cases the tile is written under TILEID into the caller's map, nothing else in any map changes, and a feature without a property map makes them panic as soon as a point is kept. Since the map is shared, clipping a multi-point to a second tile changes the TILEID of the first result.", "quantifier": "all features, ids, property maps, tiles, zooms, orders of map iteration, and any arithmetic for points and tiles", "why_tests_cant": "all features and iteration orders; the effect is on shared memory and shows only in other features that hold the same map", "anchors": ["mvt/clip.go:PointClipAboutTile", "mvt/clip.go:PointClipAboutZoom", "mvt/clip.go:makefeature", "mvt/clip.go:ClipTile", "mvt/clip.go:ClipFeature"]}
{"id": "C104", "title": "Distance in float64", "statement": "`tilecover.Distance` in float64 arithmetic: the order of the two points does not matter to the last bit and the distance of a point to itself is 0; for longitudes of at most 180 and latitudes of at most 90 degrees in size the result is a number unless the points are opposite each other on the globe to within 0.0025 miles, it is then not negative and within 0.0025 miles (four metres) of the great-circle distance on the sphere of 3963.190592 miles radius, and within 3 millionths of a mile when that distance is between 1 and 12449 miles. A detour over a third point is never shorter by more than 0.0075 miles. Between exactly opposite points the result may be NaN.", "quantifier": "all pairs of positions (any float64 coordinates for symmetry, coordinates on the map for accuracy), all math libraries whose sine, cosine, square root and arctangent are accurate to about 2^-50", "why_tests_cant": "The rounding errors depend on every bit of four coordinates and are amplified without bound (square-root fashion) near zero and near the antipode; a test compares a few pairs with a tolerance.", "anchors": ["tile_cover/line_corner_case.go: Distance, deg2rad, EarthRadius"]}
