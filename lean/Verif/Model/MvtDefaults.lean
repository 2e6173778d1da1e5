import Verif.Model.MvtReduce
import Verif.Model.MvtLayer
import Verif.Model.MvtGeom
import Verif.Model.TileGeo

/-!
# Model of small constructors and helpers of mvt

mvt/clip.go (`NewFeature`, `NewFeatures`), mvt/feature_reduce.go (`NewReduceConfig`), mvt/proto.go (`getProto`),
mvt/write_geometry.go (`TrimMultiPolygon`, `TrimMultiPolygonFloat`).
-/
namespace Verif.MvtDef
open Verif.Go Verif.Tid

/-- `geom.GeometryData` of the external package go-geom as mvt/clip.go:532-546 uses it: the type and one field for each kind.
An unset field is the empty list (nil). -/
structure GeomData (F : Type) where
  type : String
  point : List F := []
  multiPoint : List (List F) := []
  lineString : List (List F) := []
  multiLineString : List (List (List F)) := []
  polygon : List (List (List F)) := []
  multiPolygon : List (List (List (List F))) := []

/-- A property value: a string or anything else. Go language: `interface{}`, at mvt/clip.go:517-557. -/
inductive PropVal (V : Type) where
  | str (s : List Char)
  | other (v : V)

/-- A Go map with string keys, as the function a lookup computes. Go language, for mvt/clip.go:519-523, 547-552. -/
abbrev PropMap (V : Type) := String → Option (PropVal V)

/-- `m[k] = v`. Go language, for mvt/clip.go:519-523, 547-552. -/
def PropMap.put {V : Type} (m : PropMap V) (k : String) (v : PropVal V) : PropMap V := fun j => if j = k then some v else m j

/-- `geom.Feature` of go-geom: id, geometry and properties (mvt/clip.go:518, 531). -/
structure Feature (F V : Type) where
  hasId : Bool
  geom : GeomData F
  props : PropMap V

/-- `Properties = map…{}; for k, v := range props { Properties[k] = v }` (mvt/clip.go:519-522, 547-550); `es` are the entries of
`props` in the order of the iteration. -/
def copyProps {V : Type} (es : List (String × PropVal V)) : PropMap V := es.foldl (fun m e => m.put e.1 e.2) fun _ => none

/-- mvt/clip.go:517-525 `NewFeature`. `NewFeatureFromGeometryData` of go-geom is taken to wrap the geometry it gets. -/
def newFeature {F V : Type} (g : GeomData F) (props : List (String × PropVal V)) : Feature F V :=
  ⟨false, g, (copyProps props).put "COLORKEY" (.str "white".toList)⟩

/-- The switch mvt/clip.go:532-546: only the field the type names is copied. -/
def pick {F : Type} (g : GeomData F) : GeomData F :=
  let n : GeomData F := { type := g.type }
  if g.type = "Point" then { n with point := g.point }
  else if g.type = "MultiPoint" then { n with multiPoint := g.multiPoint }
  else if g.type = "LineString" then { n with lineString := g.lineString }
  else if g.type = "MultiLineString" then { n with multiLineString := g.multiLineString }
  else if g.type = "Polygon" then { n with polygon := g.polygon }
  else if g.type = "MultiPolygon" then { n with multiPolygon := g.multiPolygon }
  else n

/-- One turn of the loop of `NewFeatures` (mvt/clip.go:530-555). -/
def tileFeature {F V : Type} (props : List (String × PropVal V)) (e : TileID × GeomData F) : Feature F V :=
  ⟨false, pick e.2, ((copyProps props).put "TILEID" (.str (tilestr e.1))).put "COLORKEY" (.str "white".toList)⟩

/-- mvt/clip.go:527-557 `NewFeatures`; `es` are the entries of `mymap` in the order of the iteration. -/
def newFeatures {F V : Type} (es : List (TileID × GeomData F)) (props : List (String × PropVal V)) : List (Feature F V) :=
  es.map (tileFeature props)

/-- mvt/feature_reduce.go:9-10, 23-38 `NewReduceConfig`: the fields `Filter` uses. -/
noncomputable def newReduceConfig (t : TileID) : Reduce.Config ℝ :=
  let b := bounds t
  ⟨0.005, b.E - b.W, b.N - b.S, [], true⟩

/-- The zoom `NewReduceConfig` sets (mvt/feature_reduce.go:9, 27). -/
def reduceZoom (t : TileID) : Int := i64 (i64 t.Z + 8)

/-- A run of `Filter` (mvt/feature_reduce.go:40-81) over features with the config of `NewReduceConfig(t)`: for each feature whether it is kept
and what it is afterwards. -/
noncomputable def reduce (t : TileID) (fs : List (Reduce.Feat ℝ)) : List (Bool × Reduce.Feat ℝ) :=
  Reduce.runFilter (fun p : ℝ × ℝ => tile p.1 p.2 (reduceZoom t)) (fun n => (n : ℝ)) fs (newReduceConfig t)

/-- mvt/proto.go:56-71 `getProto`: 0 is `PROTO_MAPBOX`, 1 is `PROTO_LK`. -/
def getProto (p : Int) : Mvt.Proto := if p = 0 then Mvt.mapboxProto else if p = 1 then Mvt.lkProto else Mvt.mapboxProto

/-- mvt/write_geometry.go:47-59 `TrimMultiPolygonFloat`, `TrimMultiPolygon`. `none`: the index panic on an empty ring. -/
def trimMultiPolygon {P : Type} [DecidableEq P] (ps : List (List (List P))) : Option (List (List (List P))) := ps.mapM Mvt.trimPolygon

end Verif.MvtDef
