import Verif.Model.TileDistFloat
import Verif.Spec.TileDist
import Verif.Spec.TileFloat
import Mathlib.Analysis.SpecialFunctions.Complex.Arg

/-!
# Accuracy of the functions of package `math` that `Distance` uses

`Accurate M`: sine and cosine are within 2^-50 of the mathematical functions and never beyond 1, the cosine of an angle up to a right
angle is not negative, square roots have a relative error of at most 2^-50, and the angle of a point of the first quadrant is
within 2^-49.
-/
namespace Verif.CoverF.Dist
open Verif.Tid.Float (eps)

structure Accurate (M : MathLib) : Prop where
  sin : ∀ q : ℚ, |(q : ℝ)| ≤ 4 → |(M.sin q : ℝ) - Real.sin q| ≤ eps ∧ |M.sin q| ≤ 1
  cos : ∀ q : ℚ, |(q : ℝ)| ≤ 4 → |(M.cos q : ℝ) - Real.cos q| ≤ eps ∧ |M.cos q| ≤ 1
  cos_nonneg : ∀ q : ℚ, |(q : ℝ)| ≤ Real.pi / 2 → 0 ≤ M.cos q
  sqrt : ∀ q : ℚ, 0 ≤ q → |(M.sqrt q : ℝ) - Real.sqrt q| ≤ Real.sqrt q * eps
  atan2 : ∀ y x : ℚ, 0 ≤ y → 0 ≤ x → |(M.atan2 y x : ℝ) - Complex.arg ⟨x, y⟩| ≤ 2 * eps ∧ 0 ≤ M.atan2 y x

/-- A position (longitude, latitude) in the usual range, in degrees. -/
def OnMap (p : ℚ × ℚ) : Prop := |p.1| ≤ 180 ∧ |p.2| ≤ 90

/-- The great-circle distance, in miles on the sphere of radius 3963.190592 miles, of two positions. -/
noncomputable def greatCircle (p q : ℚ × ℚ) : ℝ := Verif.Cover.arcLength 3963.190592 ((p.1 : ℝ), (p.2 : ℝ)) ((q.1 : ℝ), (q.2 : ℝ))

end Verif.CoverF.Dist
