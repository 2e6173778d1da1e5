import Mathlib.Analysis.SpecialFunctions.Trigonometric.Basic
import Mathlib.Geometry.Euclidean.Angle.Unoriented.Basic
import Mathlib.Analysis.InnerProductSpace.PiL2

/-!
# Positions on the globe

The point of the unit sphere with a longitude and latitude in degrees, and the distance of two such points along the
surface of a sphere of radius `R`: `R` times the angle at the centre.
-/
namespace Verif.Cover

/-- Angle `d` degrees in radians. -/
noncomputable def radians (d : ℝ) : ℝ := d / 180 * Real.pi

/-- The point of the unit sphere with this longitude and latitude (degrees). -/
noncomputable def onSphere (lon lat : ℝ) : EuclideanSpace ℝ (Fin 3) :=
  !₂[Real.cos (radians lat) * Real.cos (radians lon), Real.cos (radians lat) * Real.sin (radians lon),
    Real.sin (radians lat)]

/-- Length of the shorter great-circle arc between two positions (lon, lat) on a sphere of radius `R`. -/
noncomputable def arcLength (R : ℝ) (p q : ℝ × ℝ) : ℝ :=
  R * InnerProductGeometry.angle (onSphere p.1 p.2) (onSphere q.1 q.2)

end Verif.Cover
