import Verif.Model.TileFloatMore
import Verif.Model.TileGeo
import Verif.Props.TileFloat
import Verif.Props.TileDist

/-! # C75: `PolygonTile` and `Tile_Geohash` in float64 -/

namespace Verif.Tid.Float
open Verif.Go Verif.F64

/-- **C75** In float64 the name `Tile_Geohash` gives reads back (`Strtile`) as the tile the position lies in, if the position is not within
2^-41 of the map's width of an edge of the tile. -/
theorem C75_geohash {M : MathLib} (hM : Accurate M) (lng lat : ℚ) (hx : |(lng : ℝ)| ≤ 181) (hy : |(lat : ℝ)| ≤ 85.5)
    (t : TileID) (hg : t.InGrid) (hz : t.Z ≤ 63)
    (x1 : (t.X : ℝ) / 2 ^ t.Z + 1 / 2 ^ 41 ≤ worldX lng) (x2 : worldX lng ≤ (t.X + 1 : ℝ) / 2 ^ t.Z - 1 / 2 ^ 41)
    (y1 : (t.Y : ℝ) / 2 ^ t.Z + 1 / 2 ^ 41 ≤ worldY lat) (y2 : worldY lat ≤ (t.Y + 1 : ℝ) / 2 ^ t.Z - 1 / 2 ^ 41) :
    strtile (tileGeohash M lng lat (t.Z : ℤ)) = some t := by
  have h : tileGeohash M lng lat (t.Z : ℤ) = tilestr (tile M lng lat (t.Z : ℤ)) := rfl
  rw [h, C75_tile hM lng lat hx hy t (by omega) x1 x2 y1 y2]
  exact C07_strtile_tilestr _ (valid_of_le63 hg hz)

/-- Two points whose coordinates differ by at most `d`. -/
def Within (d : ℝ) (p : ℚ × ℚ) (q : ℝ × ℝ) : Prop := |(p.1 : ℝ) - q.1| ≤ d ∧ |(p.2 : ℝ) - q.2| ≤ d

/-- **C75** In float64 `PolygonTile` is one closed ring of five points, each within 2·10^-12 degrees of its place in the exact ring. -/
theorem C75_polygon {M : MathLib} (hM : Accurate M) (t : TileID) (hg : t.InGrid) (hz : t.Z ≤ 50) :
    ∃ ring ring', polygonTile M t = [ring] ∧ Tid.polygonTile t = [ring'] ∧ ring.length = 5 ∧ ring.head? = ring.getLast? ∧
      List.Forall₂ (Within (2 / 10 ^ 12)) ring ring' := by
  obtain ⟨w, e, n, s⟩ := C75_bounds hM t hg hz
  refine ⟨_, _, rfl, rfl, rfl, rfl, ?_⟩
  exact .cons ⟨e, n⟩ (.cons ⟨e, s⟩ (.cons ⟨w, s⟩ (.cons ⟨w, n⟩ (.cons ⟨e, n⟩ .nil))))

/-- **C75** Up to zoom 35 the ring is a rectangle with four different corners, gone round clockwise from the north-east. -/
theorem C75_polygon_rectangle {M : MathLib} (hM : Accurate M) (t : TileID) (hg : t.InGrid) (hz : t.Z ≤ 35) :
    ∃ w e s n : ℚ, w < e ∧ s < n ∧ polygonTile M t = [[(e, n), (e, s), (w, s), (w, n), (e, n)]] := by
  obtain ⟨h1, h2⟩ := C75_positive_size hM t hg hz
  exact ⟨_, _, _, _, h1, h2, rfl⟩

/-- **C75** Whatever the functions of package `math` compute: the rings of neighbours in a row or column share the two points of the edge between
them, bit for bit. -/
theorem C75_polygon_neighbours (M : MathLib) (X Y : ℤ) (Z : ℕ) (hx : 0 ≤ X ∧ X + 1 < 2 ^ Z) (hy : 0 ≤ Y ∧ Y + 1 < 2 ^ Z)
    (hz : Z ≤ 50) :
    (∃ p q a b c d, polygonTile M ⟨X, Y, Z⟩ = [[p, q, a, b, p]] ∧ polygonTile M ⟨X + 1, Y, Z⟩ = [[c, d, q, p, c]]) ∧
    (∃ p q a b c d, polygonTile M ⟨X, Y, Z⟩ = [[a, p, q, b, a]] ∧ polygonTile M ⟨X, Y + 1, Z⟩ = [[p, c, d, q, p]]) := by
  obtain ⟨h1, h2⟩ := C75_neighbours M X Y Z hx hy hz
  have gr : ∀ i j : ℤ, (i = 0 ∨ i = 1) → (j = 0 ∨ j = 1) → (⟨X + i, Y + j, Z⟩ : TileID).InGrid := by
    intro i j hi hj; unfold TileID.InGrid; simp only; omega
  have g0 : (⟨X, Y, Z⟩ : TileID).InGrid := by simpa using gr 0 0 (by omega) (by omega)
  have g1 : (⟨X + 1, Y, Z⟩ : TileID).InGrid := by simpa using gr 1 0 (by omega) (by omega)
  have g2 : (⟨X, Y + 1, Z⟩ : TileID).InGrid := by simpa using gr 0 1 (by omega) (by omega)
  have k1 : (bounds M ⟨X, Y, Z⟩).N = (bounds M ⟨X + 1, Y, Z⟩).N ∧ (bounds M ⟨X, Y, Z⟩).S = (bounds M ⟨X + 1, Y, Z⟩).S := by
    rw [bounds_eq M g0 hz, bounds_eq M g1 hz]
    simp only [se]
    rw [ul_eq M (small_of_grid g0 hz).1, ul_eq M (small_of_grid g1 hz).1]
    have a0 := (small_of_grid g0 hz).2
    have a1 := (small_of_grid g1 hz).2
    simp only [se] at a0 a1
    rw [ul_eq M a0, ul_eq M a1]
    exact ⟨rfl, rfl⟩
  have k2 : (bounds M ⟨X, Y, Z⟩).W = (bounds M ⟨X, Y + 1, Z⟩).W ∧ (bounds M ⟨X, Y, Z⟩).E = (bounds M ⟨X, Y + 1, Z⟩).E := by
    rw [bounds_eq M g0 hz, bounds_eq M g2 hz]
    simp only [se]
    rw [ul_eq M (small_of_grid g0 hz).1, ul_eq M (small_of_grid g2 hz).1]
    have a0 := (small_of_grid g0 hz).2
    have a1 := (small_of_grid g2 hz).2
    simp only [se] at a0 a1
    rw [ul_eq M a0, ul_eq M a1]
    exact ⟨rfl, rfl⟩
  constructor
  · refine ⟨_, _, _, _, ((bounds M ⟨X + 1, Y, Z⟩).E, (bounds M ⟨X + 1, Y, Z⟩).N), ((bounds M ⟨X + 1, Y, Z⟩).E, (bounds M ⟨X + 1, Y, Z⟩).S),
      rfl, ?_⟩
    simp only [polygonTile, h1, k1.1, k1.2]
  · refine ⟨_, _, _, _, ((bounds M ⟨X, Y + 1, Z⟩).E, (bounds M ⟨X, Y + 1, Z⟩).S), ((bounds M ⟨X, Y + 1, Z⟩).W, (bounds M ⟨X, Y + 1, Z⟩).S),
      rfl, ?_⟩
    simp only [polygonTile, h2, k2.1, k2.2]

/-- non-vacuity: tile 12/2148/1424 is in the grid, and so are its neighbours -/
example : (⟨2148, 1424, 12⟩ : TileID).InGrid ∧ (0 : ℤ) ≤ 2148 ∧ (2148 : ℤ) + 1 < 2 ^ 12 := by decide

end Verif.Tid.Float
