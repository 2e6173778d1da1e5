import Verif.Model.MvtFloat
import Verif.Spec.TileFloat

/-!
# Positions in a tile; accuracy of `exp` and of `tan` nearer to the pole

`AccurateExp M`: as `Accurate`, and also `exp`, and `tan` on the wider range `ConvertPoint` uses, within a relative error
of 2^-50.
`gridPos t e (lng, lat)`: where a position lies in the grid of the tile: (0, 0) is the tile's north-west corner, (e, e) its
south-east one.  Latitudes beyond the map are moved to the map's edge.
-/
namespace Verif.MvtProj.Float
open Verif.Tid Verif.Tid.Float

structure AccurateExp (M : MathExp) : Prop where
  lib : Accurate M.toMathLib
  tan : ∀ q : ℚ, |(q : ℝ)| ≤ 1.55 → |(M.tan q : ℝ) - Real.tan q| ≤ |Real.tan q| * eps
  exp : ∀ q : ℚ, |(q : ℝ)| ≤ 4 → |(M.exp q : ℝ) - Real.exp q| ≤ Real.exp q * eps

/-- clamp to the interval from `a` to `b` -/
noncomputable def between (a b x : ℝ) : ℝ := max a (min b x)

noncomputable def gridPos (t : TileID) (e : ℝ) (p : ℚ × ℚ) : ℝ × ℝ :=
  ((worldX p.1 * 2 ^ t.Z - t.X) * e, (between 0 1 (worldY p.2) * 2 ^ t.Z - t.Y) * e)

end Verif.MvtProj.Float
