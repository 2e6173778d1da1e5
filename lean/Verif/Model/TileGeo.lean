import Verif.Model.TileID
import Mathlib.Analysis.SpecialFunctions.Trigonometric.Arctan
import Mathlib.Analysis.SpecialFunctions.Log.Basic
import Mathlib.Algebra.Order.Floor.Ring

/-!
# Model of the lon/lat functions of `tileid/tileid.go` over ℝ

Exact arithmetic: float64 rounding is not modelled here.
-/
namespace Verif.Tid
open Verif.Go

/-! ### lon/lat functions over ℝ -/

/-- tileid/tileid.go:11-16 `Extrema`. -/
structure Extrema where
  W : ℝ
  E : ℝ
  N : ℝ
  S : ℝ

/-- tileid/tileid.go:36-42 `Ul`: upper-left (lon, lat). -/
noncomputable def ul (t : TileID) : ℝ × ℝ :=
  let n : ℝ := (2 : ℝ) ^ t.Z
  let lon := (t.X : ℝ) / n * 360 - 180
  let latRad := Real.arctan (Real.sinh (Real.pi * (1 - 2 * (t.Y : ℝ) / n)))
  (lon, 180 / Real.pi * latRad)

/-- tileid/tileid.go:45-49 `Bounds`. (Exact integers: `X+1`, `Y+1` do not wrap for any tile of zoom < 63.) -/
noncomputable def bounds (t : TileID) : Extrema :=
  let a := ul t
  let b := ul ⟨t.X + 1, t.Y + 1, t.Z⟩
  { W := a.1, S := b.2, E := b.1, N := a.2 }

/-- tileid/tileid.go:52-58 `Tile`. The float-to-int conversion is exact here (Go leaves results outside the int
range unspecified). -/
noncomputable def tile (lng lat : ℝ) (zoom : Int) : TileID :=
  let lat := lat * (Real.pi / 180)
  let n : ℝ := (2 : ℝ) ^ zoom
  ⟨⌊(lng + 180) / 360 * n⌋,
   ⌊(1 - Real.log (Real.tan lat + 1 / Real.cos lat) / Real.pi) / 2 * n⌋,
   u64 zoom⟩

/-- tileid/tileid.go:94-97 `Center`. -/
noncomputable def center (t : TileID) : ℝ × ℝ :=
  let b := bounds t
  ((b.W + b.E) / 2, (b.N + b.S) / 2)

/-- tileid/tileid.go:100-103 `Parent`: the tile of the centre at zoom `int(Z)-1`. -/
noncomputable def parent (t : TileID) : TileID :=
  let c := center t
  tile c.1 c.2 (i64 t.Z - 1)

/-- tileid/tileid.go:135-147 `PolygonTile`: one closed ring of the four corners. -/
noncomputable def polygonTile (t : TileID) : List (List (ℝ × ℝ)) :=
  let b := bounds t
  [[(b.E, b.N), (b.E, b.S), (b.W, b.S), (b.W, b.N), (b.E, b.N)]]

end Verif.Tid
