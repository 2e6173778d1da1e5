import Verif.Model.MvtTileFloat
import Verif.Spec.MvtLonLat
import Verif.Spec.MvtFloat

/-!
# Specification: lon/lat features in a vector tile, in float64
-/
namespace Verif.MvtLL
open Verif.Go Verif.Pbf Verif.Mvt Verif.Tid Verif.Tid.Float Verif.MvtProj.Float

/-- A feature the writer accepts: id absent or an int64, hashable property values, and a geometry that survives on the grid points its positions
are written as. -/
structure FeatOkF (cl : ℚ × ℚ → Pt) (f : GeoFeatureOf (ℚ × ℚ)) : Prop where
  id : match f.id with | .uint _ => False | .int v => IsI64 v | _ => True
  props : ∀ k v, (k, v) ∈ f.props → ValOk v ∧ v ≠ .unhashable
  geo : GeoOkAt cl f.geo

/-- A layer of such features. -/
structure LayerGoodF (M : MathLib) (junk : ℚ → Int) (c : Config) (fs : List (GeoFeatureOf (ℚ × ℚ))) : Prop where
  extent : c.extent < 2 ^ 31
  version : c.version < 2 ^ 63
  feats : ∀ f ∈ fs, FeatOkF (c.gridF M junk) f

/-- Positions for which the error bounds hold: within one tile of the tile (two extents from its corner), not beyond the map's edges by more than half a
degree. -/
structure NearTile (t : TileID) (e : ℕ) (p : ℚ × ℚ) : Prop where
  lng : |(p.1 : ℝ)| ≤ 600
  lat : |(p.2 : ℝ)| ≤ 85.5
  x : -(e : ℝ) ≤ (gridPos t e p).1 ∧ (gridPos t e p).1 ≤ 2 * e
  y : |(gridPos t e p).2| ≤ 2 * e

/-- Where a position should go in the grid of `e` by `e` cells: its place, or with `clamp` the nearest place within the tile. -/
noncomputable def goal (clamp : Bool) (t : TileID) (e : ℕ) (p : ℚ × ℚ) : ℝ × ℝ :=
  if clamp then (between 0 e (gridPos t e p).1, between 0 e (gridPos t e p).2) else gridPos t e p

end Verif.MvtLL
