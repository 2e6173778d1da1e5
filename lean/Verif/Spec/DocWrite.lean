import Verif.Spec.Doc

/-!
# What the other JSON documents say

Styles and tilesets as the Mapbox API lists them, the language files of the font coverage, and the MBTiles `json` entry and metadata.
-/
namespace Verif.Doc

open Verif.Go

/-- A number that is left out when it is 0. -/
def unlessZero (k : String) (n : Int) : List (Str × J) := leaveOut (n == 0) k (number n)

/-- A text that is left out when it is empty. -/
def unlessEmpty (k : String) (s : Str) : List (Str × J) := leaveOut s.isEmpty k (.str s)

/-- A member that is there when the pointer is not nil. -/
def ifGiven {α : Type} (k : String) (f : α → J) : Option α → List (Str × J)
  | none => []
  | some a => [mem k (f a)]

/-- A style in a list of styles, given the texts of its two times. -/
def listStyleDoc (s : ListStyle) (created modified : Str) : J := .obj <|
  unlessZero "version" s.version ++ unlessEmpty "name" s.name ++ [mem "created" (.str created)] ++ unlessEmpty "id" s.id ++
  [mem "modified" (.str modified)] ++ unlessEmpty "owner" s.owner

/-- A tileset in a list of tilesets, given the texts of its two times. -/
def tilesetDoc (short : ℚ → Str) (t : Tileset) (created modified : Str) : J := .obj <|
  unlessEmpty "type" t.type ++ [mem "center" (coords short t.center), mem "created" (.str created)] ++
  unlessEmpty "description" t.description ++ unlessZero "filesize" t.filesize ++ unlessEmpty "id" t.id ++
  [mem "modified" (.str modified)] ++ unlessEmpty "name" t.name ++ unlessEmpty "visibility" t.visibility ++
  unlessEmpty "status" t.status

/-- A list of numbers; null when there is none. -/
def numbers : Option (List Int) → J
  | none => .null
  | some l => .arr (l.map number)

/-- Code points. -/
def codes (o : Option (List Nat)) : J := numbers (o.map (·.map Int.ofNat))

/-- A language and its code points. -/
def languageDoc (l : Language) : J :=
  .obj [mem "id" (.str l.id), mem "name" (.str l.name),
    mem "codepoints" (.obj [mem "exemplarCharacters" (codes l.codepoints.exemplar), mem "auxiliary" (codes l.codepoints.auxiliary),
      mem "index" (codes l.codepoints.index), mem "punctuation" (codes l.codepoints.punctuation)])]

/-- How much of a language a font covers. -/
def coverageDoc (c : LanguageCoverage) : J :=
  .obj [mem "name" (.str c.name), mem "id" (.str c.id), mem "total" (number c.total), mem "count" (number c.count),
    mem "coverages" (numbers c.coverages)]

mutual
/-- Any value. -/
def dynDoc (short : ℚ → Str) : Dyn → J
  | .nil => .null
  | .bool b => .bool b
  | .num q => .num (short q)
  | .int n => number n
  | .str s => .str s
  | .list l => .arr (dynDocs short l)
  | .map m => .obj (dynMembers short m)
/-- Any values. -/
def dynDocs (short : ℚ → Str) : List Dyn → List J
  | [] => []
  | d :: ds => dynDoc short d :: dynDocs short ds
/-- Any values by name. -/
def dynMembers (short : ℚ → Str) : List (Str × Dyn) → List (Str × J)
  | [] => []
  | (k, d) :: ds => (k, dynDoc short d) :: dynMembers short ds
end

/-- A value that is left out when it is nil. -/
def unlessNil (short : ℚ → Str) (k : String) : Dyn → List (Str × J)
  | .nil => []
  | d => [mem k (dynDoc short d)]

/-- A list; null when there is none. -/
def listDoc {α : Type} (f : α → J) : Option (List α) → J
  | none => .null
  | some l => .arr (l.map f)

/-- A map; null when there is none. -/
def mapDoc {α : Type} (f : α → J) : Option (List (Str × α)) → J
  | none => .null
  | some m => .obj (m.map fun e => (e.1, f e.2))

/-- A vector layer of an MBTiles file. -/
def mbLayerDoc (short : ℚ → Str) (l : MbLayer) : J := .obj <|
  [mem "id" (.str l.id), mem "fields" (mapDoc (dynDoc short) l.fields)] ++ unlessEmpty "description" l.description ++
  unlessZero "minzoom" l.minZoom ++ unlessZero "maxzoom" l.maxZoom

/-- An attribute of the tile statistics. -/
def attributeDoc (short : ℚ → Str) (a : Attribute) : J :=
  .obj [mem "attribute" (.str a.name), mem "count" (number a.count), mem "type" (.str a.type),
    mem "values" (listDoc (dynDoc short) a.values)]

/-- A layer of the tile statistics. -/
def statLayerDoc (short : ℚ → Str) (l : StatLayer) : J := .obj <|
  [mem "layer" (.str l.name), mem "count" (number l.count), mem "geometry" (.str l.geometry),
    mem "attributeCount" (number l.attributeCount)] ++
  leaveOut (isNone l.attributes) "attributes" (listDoc (attributeDoc short) l.attributes)

/-- The tile statistics. -/
def tileStatsDoc (short : ℚ → Str) (t : TileStats) : J :=
  .obj [mem "layerCount" (number t.layerCount), mem "layers" (listDoc (statLayerDoc short) t.layers)]

/-- The `json` entry of an MBTiles file: vector layers unless the pointer is nil, and statistics if there are any. -/
def layerDataDoc (short : ℚ → Str) (d : LayerData) : J := .obj <|
  ifGiven "vector_layers" (listDoc (mbLayerDoc short)) d.vectorLayers ++ ifGiven "tilestats" (tileStatsDoc short) d.tileStats

/-- The metadata of an MBTiles file written through a pointer. -/
def metadataDoc (short : ℚ → Str) (m : Metadata) : J := .obj <|
  [mem "name" (.str m.name), mem "format" (number m.format), mem "bounds" (coords short m.bounds), mem "center" (coords short m.center)] ++
  unlessZero "minzoom" m.minZoom ++ unlessZero "maxzoom" m.maxZoom ++ unlessEmpty "description" m.description ++
  unlessEmpty "version" m.version ++ (if m.type = 1 then [mem "type" (.str "overlay".toList)] else []) ++
  unlessEmpty "attribution" m.attribution ++
  ifGiven "json" (layerDataDoc short) m.layerData ++
  unlessEmpty "directory_layout" m.directoryLayout ++ unlessEmpty "origin" m.origin ++ unlessEmpty "srs" m.srs ++
  unlessEmpty "bounds_srs" m.boundsSrs ++
  unlessNil short "res_factor" m.resFactor ++ ifGiven "tile_size" (fun l => numbers (some l)) m.tileSize

end Verif.Doc
