import Verif.Model.TileFloat

/-!
# Model of the lon/lat ↔ tile coordinate functions of mvt in float64 (write_geometry.go, read_feature_lazy.go)

Every operation is rounded (`F64.rnd`), as in `Model/TileFloat`; untyped constant expressions are rounded once.  No fused
multiply-add, no NaN, infinities or subnormals.  `int32(v)` of a value outside the int32 range is left open by Go: it is
the parameter `junk`.
-/
namespace Verif.MvtProj.Float
open Verif.Go Verif.F64 Verif.Tid Verif.Tid.Float

/-- The functions of package `math` that mvt/write_geometry.go:79-85 and mvt/read_feature_lazy.go:50-59 call. -/
structure MathExp extends MathLib where
  exp : ℚ → ℚ

/-- mvt/write_geometry.go:9 `mercatorPole`, an untyped constant. -/
def pole : ℚ := 2003750834 / 100

/-- mvt/write_geometry.go:79-85 `ConvertPoint`. -/
def convertPoint (M : MathLib) (p : ℚ × ℚ) : ℚ × ℚ :=
  let x := rnd (rnd (pole / 180) * p.1)
  let y := rnd (rnd (M.log (M.tan (rnd (rnd (rnd (90 + p.2) * rnd piC) / 360))) / rnd piC) * rnd pole)
  (x, max (-rnd pole) (min y (rnd pole)))

/-- The fields of `Cursor` that `SinglePoint` reads (mvt/write_geometry.go:11-21). -/
structure Cursor where
  Bounds : Tid.Float.Extrema
  DeltaX : ℚ
  DeltaY : ℚ
  Extent : Int
  ExtentBool : Bool

/-- mvt/write_geometry.go:359-381 `ConvertCursor`. -/
def convertCursor (M : MathLib) (c : Cursor) : Cursor :=
  let en := convertPoint M (c.Bounds.E, c.Bounds.N)
  let ws := convertPoint M (c.Bounds.W, c.Bounds.S)
  { c with Bounds := { N := en.2, E := en.1, S := ws.2, W := ws.1 }, DeltaX := rnd (en.1 - ws.1), DeltaY := rnd (en.2 - ws.2) }

/-- mvt/write_geometry.go:70-77 `NewCursorExtent`. -/
def newCursorExtent (M : MathLib) (t : TileID) (extent : Int) : Cursor :=
  let b := Tid.Float.bounds M t
  convertCursor M { Bounds := b, DeltaX := rnd (b.E - b.W), DeltaY := rnd (b.N - b.S), Extent := extent, ExtentBool := false }

/-- Go's `math.Round`: half away from zero, exact. Go library, at mvt/write_geometry.go:283-284. -/
def goRound (x : ℚ) : Int := if 0 ≤ x then ⌊x + 1 / 2⌋ else -⌊-x + 1 / 2⌋

/-- `int32(v)` of a rounded value. Go language, at mvt/write_geometry.go:283-284. -/
def toI32 (junk : ℚ → Int) (v : ℚ) : Int :=
  if -2147483648 ≤ goRound v ∧ goRound v ≤ 2147483647 then goRound v else junk v

/-- One coordinate after the rounding (mvt/write_geometry.go:286-301). -/
def clampCoord (extent : Int) (v : Int) : Int :=
  let v := if v ≥ extent then extent else v
  if v < 0 then 0 else v

/-- mvt/write_geometry.go:277-304 `SinglePoint`. -/
def singlePoint (M : MathLib) (junk : ℚ → Int) (c : Cursor) (p : ℚ × ℚ) : Int × Int :=
  let q := convertPoint M p
  let fx := rnd (rnd (q.1 - c.Bounds.W) / c.DeltaX)
  let fy := rnd (rnd (c.Bounds.N - q.2) / c.DeltaY)
  let x := toI32 junk (rnd (fx * rnd c.Extent))
  let y := toI32 junk (rnd (fy * rnd c.Extent))
  if c.ExtentBool then (clampCoord c.Extent x, clampCoord c.Extent y) else (x, y)

/-- mvt/read_feature_lazy.go:50-59 `Project`, one point. -/
def projectPt (M : MathExp) (x0 y0 size : ℚ) (p : ℚ × ℚ) : ℚ × ℚ :=
  let y2 := rnd (180 - rnd (rnd (rnd (p.2 + y0) * 360) / size))
  (rnd (rnd (rnd (rnd (p.1 + x0) * 360) / size) - 180),
   rnd (rnd (rnd (360 / piC) * M.atan (M.exp (rnd (rnd (y2 * rnd piC) / 180)))) - 90))

/-- The call of `Project` in `ToGeoJSON` (mvt/read_feature_lazy.go:260-263, 268-290): `size`, `x0`, `y0` from the tile and
the layer's extent. -/
def toLonLat (M : MathExp) (t : TileID) (extent : Int) (p : ℚ × ℚ) : ℚ × ℚ :=
  projectPt M (rnd (rnd extent * rnd t.X)) (rnd (rnd extent * rnd t.Y)) (rnd (rnd extent * (2 : ℚ) ^ t.Z)) p

end Verif.MvtProj.Float
