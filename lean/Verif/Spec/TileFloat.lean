import Verif.Model.TileFloat
import Mathlib.Analysis.SpecialFunctions.Trigonometric.Arctan
import Mathlib.Analysis.SpecialFunctions.Log.Basic

/-!
# Accuracy of package `math`, positions on the world map

`Accurate M`: every function of `M` is within a relative error of 2^-50 (about four units in the last place) of the
mathematical function, on the ranges the tile functions use.
`worldX`, `worldY`: the place of a position on the Web-Mercator map, as a fraction of the map's width from the west and
from the north edge.
-/
namespace Verif.Tid.Float

/-- 2^-50 -/
noncomputable def eps : ℝ := 1 / 2 ^ 50

structure Accurate (M : MathLib) : Prop where
  atan : ∀ q, |(M.atan q : ℝ) - Real.arctan q| ≤ |Real.arctan q| * eps
  sinh : ∀ q : ℚ, |(q : ℝ)| ≤ 4 → |(M.sinh q : ℝ) - Real.sinh q| ≤ |Real.sinh q| * eps
  log : ∀ q : ℚ, 0 < q → |(M.log q : ℝ) - Real.log q| ≤ |Real.log q| * eps
  tan : ∀ q : ℚ, |(q : ℝ)| ≤ 3 / 2 → |(M.tan q : ℝ) - Real.tan q| ≤ |Real.tan q| * eps
  cos : ∀ q : ℚ, |(q : ℝ)| ≤ 3 / 2 → |(M.cos q : ℝ) - Real.cos q| ≤ |Real.cos q| * eps

noncomputable def worldX (lng : ℝ) : ℝ := (lng + 180) / 360

noncomputable def worldY (lat : ℝ) : ℝ :=
  (1 - Real.log (Real.tan (lat / 180 * Real.pi) + 1 / Real.cos (lat / 180 * Real.pi)) / Real.pi) / 2

end Verif.Tid.Float
