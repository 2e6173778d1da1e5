import Verif.Model.TileGeo

/-!
# Model of the lon/lat ↔ tile coordinate functions of mvt (write_geometry.go, read_feature_lazy.go)

Exact arithmetic (ℝ).  `int32(v)` of a value outside the int32 range is left open by Go: it is the parameter `junk`.
-/
namespace Verif.MvtProj
open Verif.Tid

/-- mvt/write_geometry.go:9 `mercatorPole` -/
noncomputable def pole : ℝ := 2003750834 / 100

/-- mvt/write_geometry.go:79-85 `ConvertPoint`. At latitudes ±90 the model differs (in Go the tangent is huge or tiny,
here it is the real function); the theorems stay inside. -/
noncomputable def convertPoint (p : ℝ × ℝ) : ℝ × ℝ :=
  let x := pole / 180 * p.1
  let y := Real.log (Real.tan ((90 + p.2) * Real.pi / 360)) / Real.pi * pole
  (x, max (-pole) (min y pole))

/-- The fields of `Cursor` that `SinglePoint` reads (mvt/write_geometry.go:11-21). -/
structure Cursor where
  Bounds : Extrema
  DeltaX : ℝ
  DeltaY : ℝ
  Extent : Int
  ExtentBool : Bool

/-- mvt/write_geometry.go:359-381 `ConvertCursor`. -/
noncomputable def convertCursor (c : Cursor) : Cursor :=
  let en := convertPoint (c.Bounds.E, c.Bounds.N)
  let ws := convertPoint (c.Bounds.W, c.Bounds.S)
  { c with Bounds := { N := en.2, E := en.1, S := ws.2, W := ws.1 }, DeltaX := en.1 - ws.1, DeltaY := en.2 - ws.2 }

/-- mvt/write_geometry.go:70-77 `NewCursorExtent`. -/
noncomputable def newCursorExtent (t : TileID) (extent : Int) : Cursor :=
  let b := bounds t
  convertCursor { Bounds := b, DeltaX := b.E - b.W, DeltaY := b.N - b.S, Extent := extent, ExtentBool := false }

/-- mvt/write_geometry.go:61-68 `NewCursor`. -/
noncomputable def newCursor (t : TileID) : Cursor :=
  let b := bounds t
  convertCursor { Bounds := b, DeltaX := b.E - b.W, DeltaY := b.N - b.S, Extent := 4096, ExtentBool := false }

/-- Go's `math.Round`: half away from zero. Go library math and Go language, at mvt/write_geometry.go:283-284. -/
noncomputable def goRound (x : ℝ) : Int := if 0 ≤ x then ⌊x + 1 / 2⌋ else -⌊-x + 1 / 2⌋

/-- `int32(v)` of a rounded value. Go library math and Go language, at mvt/write_geometry.go:283-284. -/
noncomputable def toI32 (junk : ℝ → Int) (v : ℝ) : Int :=
  if -2147483648 ≤ goRound v ∧ goRound v ≤ 2147483647 then goRound v else junk v

/-- One coordinate after the rounding (mvt/write_geometry.go:286-301). -/
def clampCoord (extent : Int) (v : Int) : Int :=
  let v := if v ≥ extent then extent else v
  if v < 0 then 0 else v

/-- mvt/write_geometry.go:277-304 `SinglePoint`. -/
noncomputable def singlePoint (junk : ℝ → Int) (c : Cursor) (p : ℝ × ℝ) : Int × Int :=
  let q := convertPoint p
  let fx := (q.1 - c.Bounds.W) / c.DeltaX
  let fy := (c.Bounds.N - q.2) / c.DeltaY
  let x := toI32 junk (fx * c.Extent)
  let y := toI32 junk (fy * c.Extent)
  if c.ExtentBool then (clampCoord c.Extent x, clampCoord c.Extent y) else (x, y)

/-- mvt/read_feature_lazy.go:50-59 `Project`, one point. -/
noncomputable def projectPt (x0 y0 size : ℝ) (p : ℝ × ℝ) : ℝ × ℝ :=
  let y2 := 180 - (p.2 + y0) * 360 / size
  ((p.1 + x0) * 360 / size - 180, 360 / Real.pi * Real.arctan (Real.exp (y2 * Real.pi / 180)) - 90)

/-- The call of `Project` in `ToGeoJSON` (mvt/read_feature_lazy.go:260-263, 268-290): `size`, `x0`, `y0` from the tile and
the layer's extent. -/
noncomputable def toLonLat (t : TileID) (extent : Int) (p : ℝ × ℝ) : ℝ × ℝ :=
  projectPt (extent * t.X) (extent * t.Y) (extent * (2 : ℝ) ^ t.Z) p

end Verif.MvtProj
