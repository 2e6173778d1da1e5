import Verif.Model.MvtLonLat

/-!
# `ReadTile` with its projection
-/
namespace Verif.MvtLL
open Verif.Mvt Verif.Pbf Verif.Tid Verif.MvtProj

/-- The end of `ReadTile`'s loop for one feature, mvt/read_tile.go:257-295: every position is projected (`pl`, given the layer's extent), the
kind of geometry is kept; id and properties are untouched. `none`: the feature of an unknown type, which has an empty geometry. -/
def outWith {G : Type} (pl : Int → Pt → G) (o : OutFeature) : Option (Option Int × List (Bytes × Val) × Geo G) :=
  (projectGeomWith (pl o.extent) o.geom).map fun g => (o.id, o.props, g)

/-- The same over exact positions, for `ReadTile(bytes, tile)` (mvt/read_tile.go:138-140, 257-261). -/
noncomputable def outLonLat (t : TileID) (o : OutFeature) : Option (Option Int × List (Bytes × Val) × Geo (ℝ × ℝ)) :=
  outWith (fun extent p => toLonLat t extent (ptR p)) o

/-- `ReadRawTile` projects nothing (mvt/read_tile.go:519-545). -/
def outRaw (o : OutFeature) : Option (Option Int × List (Bytes × Val) × Geo Pt) := outWith (fun _ p => p) o

end Verif.MvtLL
