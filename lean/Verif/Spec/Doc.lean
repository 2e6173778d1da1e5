import Verif.Proof.DocTime
import Verif.Spec.Float64

/-!
# What the JSON documents say

Written from the published formats (TileJSON 2.2.0, the MBTiles metadata `json` entry, RFC 3339 dates) and the Go types.
-/
namespace Verif.Doc

open Verif.Go

/-- What strconv promises of the shortest decimal of a float64: reading it gives the number again. -/
def Shortest (short : ℚ → Str) : Prop := ∀ q, Float64 q → parse64 (short q) = some q

/-- A 64-bit unsigned number. -/
def U64 (n : Nat) : Prop := n < 2 ^ 64

/-! ### How values look -/

/-- An integer. -/
def number (n : Int) : J := .num (itoa n)

/-- A text that may be missing. -/
def textOrNull : Option Str → J
  | none => .null
  | some s => .str s

/-- A list of texts; null when there is none. -/
def texts : Option (List Str) → J
  | none => .null
  | some l => .arr (l.map .str)

/-- Texts by name; null when there is no map. -/
def textMap : Option (List (Str × Str)) → J
  | none => .null
  | some m => .obj (m.map fun e => (e.1, .str e.2))

/-- Coordinates. -/
def coords (short : ℚ → Str) (l : List ℚ) : J := .arr (l.map fun q => .num (short q))

/-- No elements. -/
def isNone {α : Type} : Option (List α) → Bool
  | none => true
  | some l => l.isEmpty

/-- Members left out under a condition. -/
def leaveOut (b : Bool) (k : String) (j : J) : List (Str × J) := if b then [] else [(k.toList, j)]

/-- A member. -/
def mem (k : String) (j : J) : Str × J := (k.toList, j)

/-- A layer of a TileJSON document. -/
def vectorLayerDoc (v : VectorLayer) : J := .obj <|
  [mem "version" (number v.version), mem "extent" (number v.extent), mem "id" (.str v.id), mem "source" (.str v.source),
    mem "source_name" (.str v.name), mem "fields" (textMap v.fields)] ++
  leaveOut (isNone v.featureTags) "feature_tags" (texts v.featureTags) ++
  leaveOut v.geometryType.isEmpty "geometry_type" (.str v.geometryType) ++
  [mem "minzoom" (number v.minZoom), mem "maxzoom" (number v.maxZoom), mem "tiles" (texts v.tiles)]

/-- The layers; null when there are none. -/
def layersDoc : Option (List VectorLayer) → J
  | none => .null
  | some l => .arr (l.map vectorLayerDoc)

/-- A TileJSON document. -/
def tileJSONDoc (short : ℚ → Str) (t : TileJSON) : J := .obj <|
  [mem "id" (.str t.id), mem "attribution" (textOrNull t.attribution), mem "bounds" (coords short t.bounds),
    mem "center" (coords short t.center), mem "format" (.str t.format), mem "minzoom" (number t.minZoom),
    mem "maxzoom" (number t.maxZoom), mem "name" (textOrNull t.name), mem "description" (textOrNull t.description),
    mem "scheme" (.str t.scheme), mem "tilejson" (.str t.tileJSON), mem "tiles" (texts t.tiles),
    mem "grids" (texts t.grids), mem "data" (texts t.data), mem "version" (.str t.version),
    mem "template" (textOrNull t.template), mem "legend" (textOrNull t.legend)] ++
  leaveOut (isNone t.vectorLayers) "vector_layers" (layersDoc t.vectorLayers) ++
  [mem "type" (.str t.type), mem "tileSize" (number t.tileSize)]

/-- The names in a TileJSON document. -/
def tileJSONNames : List String := ["id", "attribution", "bounds", "center", "format", "minzoom", "maxzoom", "name",
  "description", "scheme", "tilejson", "tiles", "grids", "data", "version", "template", "legend", "vector_layers", "type",
  "tileSize"]

/-- A recipe layer. -/
def recipeLayerDoc (l : RecipeLayer) : J :=
  .obj [mem "source" (.str l.source), mem "minzoom" (number l.minZoom), mem "maxzoom" (number l.maxZoom)]

/-- A recipe with its layers. -/
def recipeDoc (r : Recipe) : J :=
  .obj [mem "version" (number r.version),
    mem "layers" (match r.layers with
      | none => .null
      | some m => .obj (m.map fun e => (e.1, recipeLayerDoc e.2)))]

/-! ### Values that can be written and read -/

/-- Numbers in the range of their types; `fields` a map (listed by key). -/
structure VectorLayer.Valid (v : VectorLayer) : Prop where
  version : IsI64 v.version
  extent : IsI64 v.extent
  minZoom : U64 v.minZoom
  maxZoom : U64 v.maxZoom
  fields : ∀ m, v.fields = some m → Sorted m

/-- Numbers in the range of their types. -/
structure TileJSON.Valid (t : TileJSON) : Prop where
  bounds : t.bounds.length = 4 ∧ ∀ q ∈ t.bounds, Float64 q
  center : t.center.length = 3 ∧ ∀ q ∈ t.center, Float64 q
  minZoom : U64 t.minZoom
  maxZoom : U64 t.maxZoom
  tileSize : t.tileSize < 2 ^ 32
  layers : ∀ l, t.vectorLayers = some l → ∀ v ∈ l, v.Valid

structure Tileset.Valid (t : Tileset) : Prop where
  center : t.center.length = 3 ∧ ∀ q ∈ t.center, Float64 q
  created : t.created.Valid
  modified : t.modified.Valid
  filesize : IsI64 t.filesize

structure ListStyle.Valid (t : ListStyle) : Prop where
  version : IsI64 t.version
  created : t.created.Valid
  modified : t.modified.Valid

structure Recipe.Valid (r : Recipe) : Prop where
  version : IsI64 r.version
  layers : ∀ m, r.layers = some m → Sorted m ∧ ∀ e ∈ m, U64 e.2.minZoom ∧ U64 e.2.maxZoom

/-- Every code point list holds 32-bit numbers. -/
def Codes (o : Option (List Nat)) : Prop := ∀ l, o = some l → ∀ n ∈ l, n < 2 ^ 32

structure CodePoints.Valid (p : CodePoints) : Prop where
  exemplar : Codes p.exemplar
  auxiliary : Codes p.auxiliary
  index : Codes p.index
  punctuation : Codes p.punctuation

structure MbLayer.Valid (l : MbLayer) : Prop where
  minZoom : IsI64 l.minZoom
  maxZoom : IsI64 l.maxZoom
  fields : ∀ m, l.fields = some m → Sorted m ∧ ∀ e ∈ m, e.2.Plain Float64

structure Attribute.Valid (a : Attribute) : Prop where
  count : IsI64 a.count
  values : ∀ l, a.values = some l → ∀ d ∈ l, d.Plain Float64

structure StatLayer.Valid (l : StatLayer) : Prop where
  count : IsI64 l.count
  attributeCount : IsI64 l.attributeCount
  attributes : ∀ as, l.attributes = some as → ∀ a ∈ as, a.Valid

structure TileStats.Valid (t : TileStats) : Prop where
  layerCount : IsI64 t.layerCount
  layers : ∀ ls, t.layers = some ls → ∀ l ∈ ls, l.Valid

structure LayerData.Valid (d : LayerData) : Prop where
  vectorLayers : ∀ l, d.vectorLayers = some (some l) → ∀ v ∈ l, v.Valid
  tileStats : ∀ t, d.tileStats = some t → t.Valid

structure Metadata.Valid (m : Metadata) : Prop where
  format : m.format < 256
  bounds : m.bounds.length = 4 ∧ ∀ q ∈ m.bounds, Float64 q
  center : m.center.length = 3 ∧ ∀ q ∈ m.center, Float64 q
  minZoom : IsI64 m.minZoom
  maxZoom : IsI64 m.maxZoom
  type : m.type = 0 ∨ m.type = 1
  layerData : ∀ d, m.layerData = some d → d.Valid
  resFactor : m.resFactor.Plain Float64
  tileSize : ∀ l, m.tileSize = some l → l.length = 2 ∧ ∀ n ∈ l, IsI64 n

/-! ### What comes back: empty lists that are left out come back as nil -/

/-- A list, nil instead of empty. -/
def nilIfEmpty {α : Type} : Option (List α) → Option (List α)
  | some [] => none
  | o => o

def VectorLayer.back (v : VectorLayer) : VectorLayer := { v with featureTags := nilIfEmpty v.featureTags }

def TileJSON.back (t : TileJSON) : TileJSON :=
  { t with vectorLayers := nilIfEmpty (t.vectorLayers.map (·.map VectorLayer.back)) }

def StatLayer.back (l : StatLayer) : StatLayer := { l with attributes := nilIfEmpty l.attributes }

def TileStats.back (t : TileStats) : TileStats := { t with layers := t.layers.map (·.map StatLayer.back) }

/-- A pointer to a nil list comes back as a nil pointer. -/
def LayerData.back (d : LayerData) : LayerData where
  vectorLayers :=
    match d.vectorLayers with
    | some none => none
    | o => o
  tileStats := d.tileStats.map TileStats.back

def Metadata.back (m : Metadata) : Metadata := { m with layerData := m.layerData.map LayerData.back }

/-! ### Reading what others wrote -/

/-- The order of the members does not matter, as long as no name is repeated (up to case). -/
def OrderFree {α : Type} (c : Codec α) : Prop := ∀ ms ms' : List (Str × J), ms.Perm ms' →
  (ms.map fun m => fold m.1).Nodup → c.read (.obj ms) = c.read (.obj ms')

/-- Members with other names do not matter. -/
def IgnoresOthers {α : Type} (names : List String) (c : Codec α) : Prop :=
  ∀ (a b : List (Str × J)) (k : Str) (j : J), (∀ n ∈ names, fold n.toList ≠ fold k) →
    c.read (.obj (a ++ (k, j) :: b)) = c.read (.obj (a ++ b))

/-- Upper and lower case letters in names do not matter. -/
def CaseBlind {α : Type} (c : Codec α) : Prop :=
  ∀ (a b : List (Str × J)) (k k' : Str) (j : J), k.map Char.toLower = k'.map Char.toLower →
    c.read (.obj (a ++ (k, j) :: b)) = c.read (.obj (a ++ (k', j) :: b))

/-- The three together. -/
def Lenient {α : Type} (names : List String) (c : Codec α) : Prop :=
  OrderFree c ∧ IgnoresOthers names c ∧ CaseBlind c

/-- The text a document gives for a name: the last one, nothing if there is none (null does not count). -/
def lastText (name : String) (ms : List (Str × J)) : Str :=
  ms.foldl (fun acc m =>
    if fold m.1 = fold name.toList then
      match m.2 with
      | .str s => s
      | _ => acc
    else acc) []

/-- The whole number a document gives for a name: the last one, 0 if there is none. -/
def lastNumber (name : String) (ms : List (Str × J)) : Nat :=
  ms.foldl (fun acc m =>
    if fold m.1 = fold name.toList then
      match m.2 with
      | .num l => (parseUint l 10).toOption.getD acc
      | _ => acc
    else acc) 0

end Verif.Doc
