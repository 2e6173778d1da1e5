import Verif.Model.TileFloat

/-!
# Model of `Distance` of package tilecover in float64

As `Verif.Cover.distance` (Model/TileDist), with every operation rounded (`F64.rnd`) and the functions of package `math` as
parameters. A float64 is the rational it denotes. No fused multiply-add (Go may fuse on some architectures, not on amd64), no
subnormals. `math.Sqrt` of a negative number is NaN, and so is then the result: `none`.
-/
namespace Verif.CoverF.Dist
open Verif.F64
open Verif.Tid.Float (piC)

/-- The functions of package `math` that tile_cover/line_corner_case.go:15-24 calls, on numbers (`sqrt` on those that are
not negative). -/
structure MathLib where
  sin : ℚ → ℚ
  cos : ℚ → ℚ
  sqrt : ℚ → ℚ
  atan2 : ℚ → ℚ → ℚ

/-- `deg2rad` (tile_cover/line_corner_case.go:9-11). -/
def deg2rad (d : ℚ) : ℚ := rnd (rnd (d * rnd piC) / 180)

/-- The package variable `EarthRadius`, in miles (tile_cover/line_corner_case.go:13). It is exported and could be assigned to;
the model takes its initial value. -/
def earthRadius : ℚ := rnd (3963190592 / 1000000)

/-- The variable `a` of `Distance` (tile_cover/line_corner_case.go:16-21). -/
def haversine (M : MathLib) (pt1 pt2 : ℚ × ℚ) : ℚ :=
  let dLat := deg2rad (rnd (pt2.2 - pt1.2))
  let dLng := |deg2rad (rnd (pt2.1 - pt1.1))|
  let dLat2Sin := M.sin (rnd (dLat / 2))
  let dLng2Sin := M.sin (rnd (dLng / 2))
  rnd (rnd (dLat2Sin * dLat2Sin) +
    rnd (rnd (rnd (M.cos (deg2rad pt1.2) * M.cos (deg2rad pt2.2)) * dLng2Sin) * dLng2Sin))

/-- `math.Sqrt`: `none` is NaN. Go library math, at tile_cover/line_corner_case.go:23. -/
def sqrtNaN (M : MathLib) (q : ℚ) : Option ℚ := if q < 0 then none else some (M.sqrt q)

/-- `Distance` (tile_cover/line_corner_case.go:15-24): `none` is NaN. -/
def distance (M : MathLib) (pt1 pt2 : ℚ × ℚ) : Option ℚ :=
  let a := haversine M pt1 pt2
  match sqrtNaN M a, sqrtNaN M (rnd (1 - a)) with
  | some y, some x => some (rnd (rnd (2 * earthRadius) * M.atan2 y x))
  | _, _ => none

end Verif.CoverF.Dist
