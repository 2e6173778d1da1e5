import Verif.Model.TileFloat

/-!
# `PolygonTile` and `Tile_Geohash` of package tileid in float64

As in Model/TileFloat.
-/
namespace Verif.Tid.Float
open Verif.Go Verif.F64

/-- tileid/tileid.go:135-147 `PolygonTile`. -/
def polygonTile (M : MathLib) (t : TileID) : List (List (ℚ × ℚ)) :=
  let bds := bounds M t
  [[(bds.E, bds.N), (bds.E, bds.S), (bds.W, bds.S), (bds.W, bds.N), (bds.E, bds.N)]]

/-- tileid/tileid.go:61-67 `Tile_Geohash`. The conversions to integers are exact, as in `tile`. -/
def tileGeohash (M : MathLib) (lng lat : ℚ) (zoom : Int) : List Char :=
  let lat := rnd (lat * rnd (piC / 180))
  let n : ℚ := 2 ^ zoom
  let xtile := ⌊rnd (rnd (rnd (lng + 180) / 360) * n)⌋
  let ytile := ⌊rnd (rnd (rnd (1 - rnd (M.log (rnd (M.tan lat + rnd (1 / M.cos lat))) / rnd piC)) / 2) * n)⌋
  tilestr ⟨xtile, ytile, u64 zoom⟩

end Verif.Tid.Float
