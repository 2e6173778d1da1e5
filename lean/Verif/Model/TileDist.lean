import Verif.Model.TileCover
import Mathlib.Analysis.SpecialFunctions.Complex.Arg

/-!
# Model of `Distance` and `CreateMap` of package tilecover and of `Tile_Geohash` of package tileid

Exact arithmetic (ℝ) as in `Verif.Model.TileGeo`.
-/
namespace Verif.Cover
open Verif.Tid

/-- `deg2rad` (tile_cover/line_corner_case.go:9-11). -/
noncomputable def deg2rad (d : ℝ) : ℝ := d * Real.pi / 180

/-- The package variable `EarthRadius`, in miles (tile_cover/line_corner_case.go:13). It is exported and could be
assigned to; the model takes its initial value. -/
noncomputable def earthRadius : ℝ := 3963.190592

/-- Go's `math.Atan2(y, x)`, the argument of the point (x, y), 0 at the origin; used at
tile_cover/line_corner_case.go:23. -/
noncomputable def atan2 (y x : ℝ) : ℝ := Complex.arg ⟨x, y⟩

/-- `Distance` (tile_cover/line_corner_case.go:15-24). -/
noncomputable def distance (pt1 pt2 : Pt) : ℝ :=
  let dLat := deg2rad (pt2.2 - pt1.2)
  let dLng := |deg2rad (pt2.1 - pt1.1)|
  let dLat2Sin := Real.sin (dLat / 2)
  let dLng2Sin := Real.sin (dLng / 2)
  let a := dLat2Sin * dLat2Sin + Real.cos (deg2rad pt1.2) * Real.cos (deg2rad pt2.2) * dLng2Sin * dLng2Sin
  2 * earthRadius * atan2 (Real.sqrt a) (Real.sqrt (1 - a))

/-- One assignment `mymap[i] = ""` in a map kept as an association list (tile_cover/tile_cover.go:173). -/
def mapPut (m : List (TileID × String)) (k : TileID) : List (TileID × String) :=
  m.filter (fun e => e.1 ≠ k) ++ [(k, "")]

/-- `CreateMap` (tile_cover/tile_cover.go:170-176), the map as an association list. -/
def createMap (tiles : List TileID) : List (TileID × String) := tiles.foldl mapPut []

end Verif.Cover

namespace Verif.Tid
open Verif.Go

/-- `Tile_Geohash` (tileid/tileid.go:61-67). The coordinates are exact integers before `Tilestr`, as in `tile`. -/
noncomputable def tileGeohash (lng lat : ℝ) (zoom : Int) : List Char :=
  let lat := lat * (Real.pi / 180)
  let n : ℝ := (2 : ℝ) ^ zoom
  let xtile := ⌊(lng + 180) / 360 * n⌋
  let ytile := ⌊(1 - Real.log (Real.tan lat + 1 / Real.cos lat) / Real.pi) / 2 * n⌋
  tilestr ⟨xtile, ytile, u64 zoom⟩

end Verif.Tid
