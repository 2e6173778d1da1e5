import Verif.Model.MvtLonLat
import Verif.Model.MvtFloat

/-!
# Model of writing and reading a tile of lon/lat features in float64

mvt/write_layer.go (`WriteLayer`) and mvt/read_feature_lazy.go (`ToGeoJSON`) with the float64 functions of `Model/MvtFloat`.
-/
namespace Verif.MvtLL
open Verif.Go Verif.Pbf Verif.Mvt Verif.Tid Verif.Tid.Float Verif.MvtProj.Float

/-- The cursor of a layer in `WriteLayer` (mvt/write_layer.go:64, 163-166), in float64. -/
def Config.cursorF (M : MathLib) (c : Config) : MvtProj.Float.Cursor :=
  { newCursorExtent M c.tile (c.ext : Int) with ExtentBool := c.extentBool }

/-- `SinglePoint` with the cursor of a layer (mvt/write_geometry.go:277-304, mvt/write_layer.go:162-170), in float64. -/
def Config.gridF (M : MathLib) (junk : ℚ → Int) (c : Config) : ℚ × ℚ → Pt := MvtProj.Float.singlePoint M junk (c.cursorF M)

/-- mvt/write_layer.go:162-192 `WriteLayer`, in float64. `none`: panic. -/
def writeLayerF (P : Proto) (nc : NumCodec) (M : MathLib) (junk : ℚ → Int) (c : Config) (fs : List (GeoFeatureOf (ℚ × ℚ))) : Option Bytes :=
  writeLayerWith P nc (c.gridF M junk) c fs

/-- `Project` of one grid point in `ToGeoJSON` (mvt/read_feature_lazy.go:50-59, 260-290), in float64; the conversion of a coordinate to
float64 is exact. -/
def lonLatF (M : MathExp) (t : TileID) (extent : Int) (p : Pt) : ℚ × ℚ := MvtProj.Float.toLonLat M t extent ((p.1 : ℚ), (p.2 : ℚ))

/-- mvt/read_feature_lazy.go:254-296 `ToGeoJSON(tile)`, in float64. -/
def toLonLatFeatureF (M : MathExp) (b : Bytes) (t : TileID) (f : Feature) : Option (Int × List (Bytes × Val) × Geo (ℚ × ℚ)) :=
  toGeoJSONWith (lonLatF M t) b f

end Verif.MvtLL
