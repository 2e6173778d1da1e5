import Verif.Model.MvtLonLat
import Verif.Spec.MvtGeom
import Verif.Spec.MvtLayer
import Verif.Props.MvtProject

/-!
# Specification: what a lon/lat geometry becomes in a vector tile

A position is moved to the nearest point of the tile's grid of `e` by `e` cells (`cell`); a grid point has a lon/lat position
(`place`). Everything else about a geometry is kept, except points that repeat their predecessor and the direction of rings.
-/
namespace Verif.MvtLL
open Verif.Mvt Verif.Mvt.Spec Verif.MvtProj Verif.Tid

/-- Where in the tile a position should go (0 to 1 west to east and north to south): its position, or with `clamp` the nearest one
within the tile. -/
noncomputable def target (clamp : Bool) (t : TileID) (p : ℝ × ℝ) : ℝ × ℝ :=
  if clamp then (max 0 (min 1 (tilePos t p).1), max 0 (min 1 (tilePos t p).2)) else tilePos t p

/-- The nearest point of the grid (halves away from zero). -/
noncomputable def cell (clamp : Bool) (t : TileID) (e : ℕ) (p : ℝ × ℝ) : Pt :=
  (goRound ((target clamp t p).1 * e), goRound ((target clamp t p).2 * e))

/-- The lon/lat position of a grid point. -/
noncomputable def place (t : TileID) (e : ℕ) (q : Pt) : ℝ × ℝ := toLonLat t e ((q.1 : ℝ), (q.2 : ℝ))

/-- Polygons whose outer rings run clockwise (as seen on the map) and whose holes run the other way; rings without area run either way. -/
def Oriented (ps : List (List Line)) : Prop := ∀ p ∈ ps, (∀ r ∈ p.head?, 0 ≤ area2 r) ∧ ∀ r ∈ p.tail, area2 r ≤ 0

/-- `o` is what a reader should get for the geometry `g`, if positions are moved to grid points by `cl` and grid points are read as `pl`: the
same positions moved to the grid, without repetitions; rings closed, outer rings clockwise and holes not; a multi-geometry with one part is
that part. -/
def ReadsAt {F G : Type} [DecidableEq F] (cl : F → Pt) (pl : Pt → G) : Geo F → Geo G → Prop
  | .point p, o => o = .point (pl (cl p))
  | .multiPoint _, _ => False
  | .lineString l, o => o = .lineString ((noRepeats (l.map cl)).map pl)
  | .multiLineString ls, o =>
    let out := ls.map fun l => (noRepeats (l.map cl)).map pl
    (∃ l, out = [l] ∧ o = .lineString l) ∨ out.length ≠ 1 ∧ o = .multiLineString out
  | .polygon rs, o => ∃ grid, List.Forall₂ SameRing (rs.map fun r => (close r).map cl) grid ∧ Oriented [grid] ∧
      o = .polygon (grid.map (List.map pl))
  | .multiPolygon ps, o => ∃ grid, List.Forall₂ (List.Forall₂ SameRing) (ps.map (List.map fun r => (close r).map cl)) grid ∧
      Oriented grid ∧
      let out := grid.map (List.map (List.map pl))
      ((∃ p, out = [p] ∧ o = .polygon p) ∨ out.length ≠ 1 ∧ o = .multiPolygon out)

/-- `o` is what a reader should get for the geometry `g` in the tile's grid. -/
def ReadsAs (clamp : Bool) (t : TileID) (e : ℕ) : Geo (ℝ × ℝ) → Geo (ℝ × ℝ) → Prop := ReadsAt (cell clamp t e) (place t e)

/-- A position of the Web-Mercator square, near enough to the tile for its grid coordinates to be int32s. -/
def PosOk (t : TileID) (e : ℕ) (p : ℝ × ℝ) : Prop :=
  (bounds ⟨0, 0, 0⟩).HasPoint p.1 p.2 ∧ |(tilePos t p).1 * e| ≤ 2147483647 ∧ |(tilePos t p).2 * e| ≤ 2147483647

/-- The positions of a geometry. -/
def positions {F : Type} : Geo F → List F
  | .point p => [p]
  | .multiPoint ps => ps
  | .lineString l => l
  | .multiLineString ls => ls.flatten
  | .polygon rs => rs.flatten
  | .multiPolygon ps => ps.flatten.flatten

/-- A ring small enough for areas in int32: coordinates below 2^30, and for any two of its points the product of the area formula below 2^31.
Coordinates from -23170 to 23170 will do, and so will coordinates from 0 to 32767. -/
def AreaFits {F : Type} (cl : F → Pt) (r : List F) : Prop :=
  (∀ p ∈ r, |(cl p).1| < 2 ^ 30 ∧ |(cl p).2| < 2 ^ 30) ∧
    ∀ p ∈ r, ∀ q ∈ r, |((cl p).1 - (cl q).1) * ((cl q).2 + (cl p).2)| < 2 ^ 31

/-- Geometries that survive, if positions are moved to grid points by `cl`: points not on the grid's first cell, non-empty lines and rings,
grid coordinates small enough for the encoding's differences (lines) and for int32 areas (polygons), and no flat outer ring after the first
polygon. -/
def GeoOkAt {F : Type} [DecidableEq F] (cl : F → Pt) : Geo F → Prop
  | .point p => cl p ≠ (0, 0)
  | .multiPoint _ => False
  | .lineString l => l ≠ [] ∧ l.length ≤ 2 ^ 29 ∧ ∀ p ∈ l, |(cl p).1| < 2 ^ 30 ∧ |(cl p).2| < 2 ^ 30
  | .multiLineString ls => ls ≠ [] ∧ ∀ l ∈ ls, l ≠ [] ∧ l.length ≤ 2 ^ 29 ∧
      ∀ p ∈ l, |(cl p).1| < 2 ^ 30 ∧ |(cl p).2| < 2 ^ 30
  | .polygon rs => rs ≠ [] ∧ ∀ r ∈ rs, r ≠ [] ∧ r.length < 2 ^ 22 ∧ AreaFits cl r
  | .multiPolygon ps => ps ≠ [] ∧ (∀ p ∈ ps, p ≠ [] ∧ ∀ r ∈ p, r ≠ [] ∧ r.length < 2 ^ 22 ∧ AreaFits cl r) ∧
      ∀ p ∈ ps.tail, ∀ r ∈ p.head?, area2 ((close r).map cl) ≠ 0

/-- Geometries without empty parts (and no multi-points), whatever their positions: what `GeoOkAt` asks apart from sizes, which clamping to an
extent of at most 32767 guarantees. -/
def GeoShape {F : Type} [DecidableEq F] (cl : F → Pt) : Geo F → Prop
  | .point p => cl p ≠ (0, 0)
  | .multiPoint _ => False
  | .lineString l => l ≠ [] ∧ l.length ≤ 2 ^ 29
  | .multiLineString ls => ls ≠ [] ∧ ∀ l ∈ ls, l ≠ [] ∧ l.length ≤ 2 ^ 29
  | .polygon rs => rs ≠ [] ∧ ∀ r ∈ rs, r ≠ [] ∧ r.length < 2 ^ 22
  | .multiPolygon ps => ps ≠ [] ∧ (∀ p ∈ ps, p ≠ [] ∧ ∀ r ∈ p, r ≠ [] ∧ r.length < 2 ^ 22) ∧
      ∀ p ∈ ps.tail, ∀ r ∈ p.head?, area2 ((close r).map cl) ≠ 0

/-- Geometries that survive in the tile's grid. -/
def GeoOk (clamp : Bool) (t : TileID) (e : ℕ) : Geo (ℝ × ℝ) → Prop := GeoOkAt (cell clamp t e)

end Verif.MvtLL

namespace Verif.MvtLL
open Verif.Go Verif.Pbf Verif.Mvt Verif.MvtProj Verif.Tid

/-- The id a reader should see; 0 stands for no id. -/
def expId : FeatID → Int
  | .int v => v
  | _ => 0

/-- A feature the writer accepts: id absent or an int64, hashable property values, positions on the map, and a geometry that survives. -/
structure FeatOk (c : Config) (f : GeoFeature) : Prop where
  id : match f.id with | .uint _ => False | .int v => IsI64 v | _ => True
  props : ∀ k v, (k, v) ∈ f.props → ValOk v ∧ v ≠ .unhashable
  pos : ∀ p ∈ positions f.geo, PosOk c.tile c.ext p
  geo : GeoOk c.extentBool c.tile c.ext f.geo

/-- A layer of such features, for a tile of the grid. -/
structure LayerGood (c : Config) (fs : List GeoFeature) : Prop where
  grid : c.tile.InGrid
  extent : c.extent < 2 ^ 31
  version : c.version < 2 ^ 63
  feats : ∀ f ∈ fs, FeatOk c f

/-- The feature at position `q` of layer `L`, read from `b` and converted with `ToGeoJSON` (`toGeo`), has the id and properties of `f` and a
geometry that `f`'s should become (`reads`). -/
def FeatureAt {F G : Type} (P : Proto) (b : Bytes) (late : Bool) (n : Nat) (L : Layer)
    (toGeo : Feature → Option (Int × List (Bytes × Val) × Geo G)) (reads : Geo F → Geo G → Prop) (f : GeoFeatureOf F) (q : Int) : Prop :=
  ∃ F props o, readFeature P b late n L q = .ok F ∧ toGeo F = some (expId f.id, props, o) ∧
    List.Forall₂ (fun (p : Bytes × GoVal) (x : Bytes × Val) => x.1 = p.1 ∧ ReadAs p.2 x.2) f.props props ∧ reads f.geo o

/-- The feature at position `q` of layer `L`, read from `b` and converted to lon/lat with the layer's tile, is `f`. -/
def FeatureIs (P : Proto) (b : Bytes) (late : Bool) (n : Nat) (c : Config) (L : Layer) (f : GeoFeature) (q : Int) : Prop :=
  FeatureAt P b late n L (toLonLatFeature b c.tile) (ReadsAs c.extentBool c.tile c.ext) f q

end Verif.MvtLL
