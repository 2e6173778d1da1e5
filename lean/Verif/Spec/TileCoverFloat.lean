import Verif.Model.TileCoverFloat

/-! # What the theorems on the tile cover in float64 speak of -/
namespace Verif.CoverF

/-- A point with float64 coordinates as a point of the plane. -/
noncomputable def toR (p : ℚ × ℚ) : ℝ × ℝ := ((p.1 : ℝ), (p.2 : ℝ))

/-- Rings of points with float64 coordinates as rings in the plane. -/
noncomputable def ringsR (rings : List (List (ℚ × ℚ))) : List (List (ℝ × ℝ)) := rings.map fun c => c.map toR

/-- The edges of a ring, the last one back to the start. -/
def edges (c : List (ℚ × ℚ)) : List ((ℚ × ℚ) × (ℚ × ℚ)) := c.zip (c.tail ++ c.head?.toList)

/-- The horizontal distance from `p` to the segment from `a` to `b` is more than `d` (or the segment does not reach the
height of `p`). -/
def FarFrom (d : ℚ) (p a b : ℚ × ℚ) : Prop :=
  ∀ t : ℚ, 0 ≤ t → t ≤ 1 → (1 - t) * a.2 + t * b.2 = p.2 → d < |p.1 - ((1 - t) * a.1 + t * b.1)|

end Verif.CoverF
