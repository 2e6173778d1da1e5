import Verif.Model.MvtProject
import Verif.Model.MvtGeom
import Verif.Model.MvtLayer

/-!
# Model of the lon/lat side of mvt: writing a layer of lon/lat features and reading features back as lon/lat

mvt/write_geometry.go (`Make…Float`), mvt/write_feature.go (`AddFeature`), mvt/write_layer.go (`WriteLayer`),
mvt/read_feature_lazy.go (`ToGeoJSON`, `ConvertGeometry`, `LoadGeometryScaled`).
-/
namespace Verif.MvtLL
open Verif.Go Verif.Pbf Verif.Mvt Verif.MvtProj Verif.Tid

/-- The geometries of a `geom.Feature` whose `GetType()` is one of the six the writer knows (mvt/write_feature.go:33-66), over positions `F`. -/
inductive Geo (F : Type) where
  | point (p : F)
  | multiPoint (ps : List F)
  | lineString (l : List F)
  | multiLineString (ls : List (List F))
  | polygon (rs : List (List F))
  | multiPolygon (ps : List (List (List F)))

/-- mvt/write_geometry.go:138-147 `MakeLineFloat`; `sp` is `SinglePoint`. `none`: the index panic on an empty line. -/
def makeLineFloat {F : Type} (sp : F → Pt) (c : Mvt.Cursor) : List F → Option Mvt.Cursor
  | [] => none
  | p :: ps =>
    let startpos := c.geometry.length
    let c1 := movePoint c (sp p)
    let c2 := { c1 with geometry := c1.geometry ++ [lineTo (ps.length % 4294967296)] }
    let c3 := ps.foldl (fun c q => linePoint c (sp q)) c2
    some { c3 with geometry := c3.geometry.set (startpos + 3) (lineTo c3.count) }

/-- mvt/write_geometry.go:335-339 `MakeMultiLineFloat`. -/
def makeMultiLineFloat {F : Type} (sp : F → Pt) (c : Mvt.Cursor) : List (List F) → Option Mvt.Cursor
  | [] => some c
  | l :: ls => (makeLineFloat sp c l).bind (makeMultiLineFloat sp · ls)

/-- mvt/write_geometry.go:306-313 `MakePointFloat`. -/
def makePointFloat {F : Type} (sp : F → Pt) (c : Mvt.Cursor) (p : F) : Mvt.Cursor := linePoint { c with geometry := [moveTo 1] } (sp p)

/-- mvt/write_geometry.go:320-326 `MakeMultiPointFloat`. -/
def makeMultiPointFloat {F : Type} (sp : F → Pt) (c : Mvt.Cursor) (ps : List F) : Mvt.Cursor :=
  ps.foldl (fun c q => linePoint c (sp q)) { c with geometry := [moveTo (ps.length % 4294967296)] }

/-- The geometry type and the words `AddFeature` writes for a geometry (mvt/write_feature.go:33-66), on the cursor `RefreshCursor`
leaves (mvt/write_layer.go:155-160). `none`: panic on an empty line or ring or a polygon without rings. -/
def geoWords {F : Type} [DecidableEq F] (sp : F → Pt) : Geo F → Option (Nat × List Nat)
  | .point p => some (1, (makePointFloat sp Mvt.Cursor.new p).geometry)
  | .multiPoint ps => some (1, (makeMultiPointFloat sp Mvt.Cursor.new ps).geometry)
  | .lineString l => (makeLineFloat sp Mvt.Cursor.new l).map fun c => (2, c.geometry)
  | .multiLineString ls => (makeMultiLineFloat sp Mvt.Cursor.new ls).map fun c => (2, c.geometry)
  | .polygon rs => (makePolygonFloat sp Mvt.Cursor.new rs).map fun c => (3, c.geometry)
  | .multiPolygon ps => (makeMultiPolygonFloat sp Mvt.Cursor.new ps).map fun c => (3, c.geometry)

/-- A lon/lat feature given to the writer: id, properties (in the order the map is iterated) and geometry over positions `F`.
mvt/write_feature.go:11-72. -/
structure GeoFeatureOf (F : Type) where
  id : FeatID
  props : List (Bytes × GoVal)
  geo : Geo F

/-- Features over exact positions. mvt/write_feature.go:11-72. -/
abbrev GeoFeature := GeoFeatureOf (ℝ × ℝ)

/-- mvt/write_layer.go:31-40 `Config`: the fields `WriteLayer` uses besides the protocol. -/
structure Config where
  tile : TileID
  name : Bytes
  extent : Nat
  version : Nat
  extentBool : Bool

/-- mvt/write_layer.go:50-52 `NewConfig`. -/
def newConfig (name : Bytes) (tile : TileID) : Config := ⟨tile, name, 0, 0, true⟩

/-- The extent `NewLayerConfig` settles on (mvt/write_layer.go:57-59). -/
def Config.ext (c : Config) : Nat := if c.extent = 0 then 4096 else c.extent

/-- The cursor of a layer in `WriteLayer` (mvt/write_layer.go:64, 163-166). -/
noncomputable def Config.cursor (c : Config) : MvtProj.Cursor :=
  { newCursorExtent c.tile (c.ext : Int) with ExtentBool := c.extentBool }

/-- mvt/write_layer.go:168-170: the loop of `WriteLayer` over the features; `sp` is `SinglePoint`. `none`: panic. -/
def addFeatures {F : Type} [DecidableEq F] (P : Proto) (sp : F → Pt) : LayerWrite → List (GeoFeatureOf F) → Option LayerWrite
  | l, [] => some l
  | l, f :: fs => (geoWords sp f.geo).bind fun w => (addFeature P l f.id w.1 w.2 f.props).bind fun l' => addFeatures P sp l' fs

/-- mvt/write_layer.go:162-192 `WriteLayer`; `sp` is `SinglePoint` with the layer's cursor. `none`: panic. -/
def writeLayerWith {F : Type} [DecidableEq F] (P : Proto) (nc : NumCodec) (sp : F → Pt) (c : Config) (fs : List (GeoFeatureOf F)) :
    Option Bytes :=
  (addFeatures P sp (LayerWrite.newConfig c.name c.extent c.version) fs).map (flush P nc)

/-- mvt/write_layer.go:162-192 `WriteLayer` over exact positions. `none`: panic. -/
noncomputable def writeLayer (P : Proto) (nc : NumCodec) (junk : ℝ → Int) (c : Config) (fs : List GeoFeature) : Option Bytes :=
  writeLayerWith P nc (singlePoint junk c.cursor) c fs

/-! ### Reading -/

/-- The `float64` position of a tile coordinate (mvt/read_feature_lazy.go:163-180). -/
noncomputable def ptR (p : Pt) : ℝ × ℝ := ((p.1 : ℝ), (p.2 : ℝ))

/-- The switch of `ToGeoJSON` (mvt/read_feature_lazy.go:268-290) with `Project` (50-59) on every line; `pl` is the projection of one position.
`none`: the nil geometry of an unknown type panics (and the recovered call returns a nil feature). -/
def projectGeomWith {G : Type} (pl : Pt → G) : Geom → Option (Geo G)
  | .point p => some (.point (pl p))
  | .multiPoint ps => some (.multiPoint (ps.map pl))
  | .lineString l => some (.lineString (l.map pl))
  | .multiLineString ls => some (.multiLineString (ls.map (List.map pl)))
  | .polygon rs => some (.polygon (rs.map (List.map pl)))
  | .multiPolygon ps => some (.multiPolygon (ps.map (List.map (List.map pl))))
  | .unknown => none

/-- mvt/read_feature_lazy.go:254-296 `ToGeoJSON(tile)`: id, properties and lon/lat geometry; `pl` is `Project` for the tile and an extent.
`none`: no feature (an error or a recovered panic). -/
def toGeoJSONWith {G : Type} (pl : Int → Pt → G) (b : Bytes) (f : Feature) : Option (Int × List (Bytes × Val) × Geo G) :=
  (loadGeom b f).bind fun g => (projectGeomWith (pl f.extent) g).map fun o => (f.id, f.props, o)

/-- mvt/read_feature_lazy.go:254-296 `ToGeoJSON(tile)` over exact positions. -/
noncomputable def toLonLatFeature (b : Bytes) (t : TileID) (f : Feature) : Option (Int × List (Bytes × Val) × Geo (ℝ × ℝ)) :=
  toGeoJSONWith (fun extent p => toLonLat t extent (ptR p)) b f

/-! ### Scaling -/

/-- mvt/read_feature_lazy.go:298-300 `convertpt`; `rnd` is `pbf.Round(·, .5, 0)` of the external package go-pbf. -/
noncomputable def convertpt (rnd : ℝ → ℝ) (dim : ℝ) (p : ℝ × ℝ) : ℝ × ℝ := (rnd (p.1 / dim), rnd (p.2 / dim))

/-- mvt/read_feature_lazy.go:302-307 `convertln`. -/
noncomputable def convertln (rnd : ℝ → ℝ) (dim : ℝ) (l : List (ℝ × ℝ)) : List (ℝ × ℝ) := l.map (convertpt rnd dim)

/-- mvt/read_feature_lazy.go:309-314 `convertlns`. -/
noncomputable def convertlns (rnd : ℝ → ℝ) (dim : ℝ) (ls : List (List (ℝ × ℝ))) : List (List (ℝ × ℝ)) := ls.map (convertln rnd dim)

/-- mvt/read_feature_lazy.go:316-337 `ConvertGeometry`; `none` is a nil geometry (in) and an empty `GeometryData` (out). -/
noncomputable def convertGeometry (rnd : ℝ → ℝ) (dim : ℝ) : Option (Geo (ℝ × ℝ)) → Option (Geo (ℝ × ℝ))
  | none => none
  | some (.point p) => some (.point (convertpt rnd dim p))
  | some (.multiPoint ps) => some (.multiPoint (convertln rnd dim ps))
  | some (.lineString l) => some (.lineString (convertln rnd dim l))
  | some (.multiLineString ls) => some (.multiLineString (convertlns rnd dim ls))
  | some (.polygon rs) => some (.polygon (convertlns rnd dim rs))
  | some (.multiPolygon ps) => some (.multiPolygon (ps.map (convertlns rnd dim)))

/-- A geometry read in tile coordinates, as `LoadGeometry` returns it (mvt/read_feature_lazy.go:225-251). -/
noncomputable def asGeo : Geom → Option (Geo (ℝ × ℝ))
  | .point p => some (.point (ptR p))
  | .multiPoint ps => some (.multiPoint (ps.map ptR))
  | .lineString l => some (.lineString (l.map ptR))
  | .multiLineString ls => some (.multiLineString (ls.map (List.map ptR)))
  | .polygon rs => some (.polygon (rs.map (List.map ptR)))
  | .multiPolygon ps => some (.multiPolygon (ps.map (List.map (List.map ptR))))
  | .unknown => none

/-- mvt/read_feature_lazy.go:339-343 `LoadGeometryScaled(dim)`: the geometry (`none`: an empty one) and whether the error is nil. -/
noncomputable def loadGeometryScaled (rnd : ℝ → ℝ) (dim : ℝ) (b : Bytes) (f : Feature) : Option (Geo (ℝ × ℝ)) × Bool :=
  (convertGeometry rnd dim ((loadGeom b f).bind asGeo), (loadGeom b f).isSome)

end Verif.MvtLL
