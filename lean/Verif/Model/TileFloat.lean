import Verif.Model.TileID
import Verif.Model.F64

/-!
# Model of the lon/lat functions of `tileid/tileid.go` in float64

Every operation is rounded (`F64.rnd`); a float64 is the rational it denotes.  No fused multiply-add (Go may fuse on some
architectures, not on amd64), no NaN, infinities or subnormals.  The functions of Go's package `math` are parameters: any
functions; how accurate they are is a hypothesis of the theorems that need it.  `math.Pow(2, k)` is exact.
-/
namespace Verif.Tid.Float
open Verif.Go Verif.F64

/-- The functions of package `math` that tileid/tileid.go:36-67 calls. -/
structure MathLib where
  atan : ℚ → ℚ
  sinh : ℚ → ℚ
  log : ℚ → ℚ
  tan : ℚ → ℚ
  cos : ℚ → ℚ

/-- The untyped constant `math.Pi` (Go library; used at tileid/tileid.go:39-40, 53, 56). -/
def piC : ℚ := 314159265358979323846264338327950288419716939937510582097494459 / 10 ^ 62

/-- tileid/tileid.go:11-16 `Extrema`. -/
structure Extrema where
  W : ℚ
  E : ℚ
  N : ℚ
  S : ℚ
  deriving DecidableEq

/-- tileid/tileid.go:36-42 `Ul`: upper-left (lon, lat). -/
def ul (M : MathLib) (t : TileID) : ℚ × ℚ :=
  let n : ℚ := 2 ^ t.Z
  let lon := rnd (rnd (rnd (rnd t.X / n) * 360) - 180)
  let latRad := M.atan (M.sinh (rnd (rnd piC * rnd (1 - rnd (rnd (2 * rnd t.Y) / n)))))
  (lon, rnd (rnd (180 / piC) * latRad))

/-- tileid/tileid.go:45-49 `Bounds`. -/
def bounds (M : MathLib) (t : TileID) : Extrema :=
  let a := ul M t
  let b := ul M ⟨i64 (t.X + 1), i64 (t.Y + 1), t.Z⟩
  { W := a.1, S := b.2, E := b.1, N := a.2 }

/-- tileid/tileid.go:52-58 `Tile`. The conversion of the floor to an integer is exact here (Go leaves results outside the
int range unspecified). -/
def tile (M : MathLib) (lng lat : ℚ) (zoom : Int) : TileID :=
  let lat := rnd (lat * rnd (piC / 180))
  let n : ℚ := 2 ^ zoom
  ⟨⌊rnd (rnd (rnd (lng + 180) / 360) * n)⌋,
   ⌊rnd (rnd (rnd (1 - rnd (M.log (rnd (M.tan lat + rnd (1 / M.cos lat))) / rnd piC)) / 2) * n)⌋,
   u64 zoom⟩

/-- tileid/tileid.go:94-97 `Center`. -/
def center (M : MathLib) (t : TileID) : ℚ × ℚ :=
  let b := bounds M t
  (rnd (rnd (b.W + b.E) / 2), rnd (rnd (b.N + b.S) / 2))

/-- tileid/tileid.go:100-103 `Parent`: the tile of the centre at zoom `int(Z)-1`. -/
def parent (M : MathLib) (t : TileID) : TileID :=
  let c := center M t
  tile M c.1 c.2 (i64 t.Z - 1)

end Verif.Tid.Float
