import Verif.Model.TileGeo
import Verif.Props.TileID
import Mathlib.Analysis.SpecialFunctions.Arsinh
import Mathlib.Analysis.SpecialFunctions.Trigonometric.ArctanDeriv
import Mathlib.Analysis.SpecialFunctions.Trigonometric.DerivHyp

/-! # C04, C05, C06: tiles and lon/lat boxes (exact arithmetic over ℝ) -/
namespace Verif.Tid
open Verif.Go

/-- Spec: the point lies in the box, west and north edges included, east and south edges excluded. -/
def Extrema.HasPoint (b : Extrema) (lng lat : ℝ) : Prop := b.W ≤ lng ∧ lng < b.E ∧ b.S < lat ∧ lat ≤ b.N

theorem log_tan_cos {φ : ℝ} (h1 : -(Real.pi / 2) < φ) (h2 : φ < Real.pi / 2) :
    Real.log (Real.tan φ + 1 / Real.cos φ) = Real.arsinh (Real.tan φ) := by
  have hc : 0 < Real.cos φ := Real.cos_pos_of_mem_Ioo ⟨h1, h2⟩
  unfold Real.arsinh
  congr 2
  have : 1 + Real.tan φ ^ 2 = (1 / Real.cos φ) ^ 2 := by
    rw [Real.tan_eq_sin_div_cos]
    field_simp
    linarith [Real.sin_sq_add_cos_sq φ]
  rw [this, Real.sqrt_sq (by positivity)]

theorem lat_le_iff {lat v : ℝ} (h1 : -90 < lat) (h2 : lat < 90) :
    lat ≤ 180 / Real.pi * Real.arctan (Real.sinh v) ↔ Real.arsinh (Real.tan (lat * (Real.pi / 180))) ≤ v := by
  have hpi := Real.pi_pos
  have a1 : -(Real.pi / 2) < lat * (Real.pi / 180) := by nlinarith
  have a2 : lat * (Real.pi / 180) < Real.pi / 2 := by nlinarith
  have e : lat ≤ 180 / Real.pi * Real.arctan (Real.sinh v) ↔ lat * (Real.pi / 180) ≤ Real.arctan (Real.sinh v) := by
    constructor
    · intro h
      calc lat * (Real.pi / 180) ≤ (180 / Real.pi * Real.arctan (Real.sinh v)) * (Real.pi / 180) := by gcongr
        _ = Real.arctan (Real.sinh v) := by field_simp
    · intro h
      calc lat = 180 / Real.pi * (lat * (Real.pi / 180)) := by field_simp
        _ ≤ _ := by gcongr
  rw [e]
  conv_lhs => rw [← Real.arctan_tan a1 a2]
  rw [Real.arctan_le_arctan_iff, ← Real.arsinh_le_arsinh, Real.arsinh_sinh]

theorem lt_lat_iff {lat v : ℝ} (h1 : -90 < lat) (h2 : lat < 90) :
    180 / Real.pi * Real.arctan (Real.sinh v) < lat ↔ v < Real.arsinh (Real.tan (lat * (Real.pi / 180))) := by
  rw [← not_le, lat_le_iff h1 h2, not_le]

/-- fractional tile row -/
noncomputable def rowf (lat : ℝ) : ℝ := (1 - Real.arsinh (Real.tan (lat * (Real.pi / 180))) / Real.pi) / 2

theorem tile_Y_eq {lat : ℝ} (h1 : -90 < lat) (h2 : lat < 90) (lng : ℝ) (z : Int) :
    tile lng lat z = ⟨⌊(lng + 180) / 360 * (2 : ℝ) ^ z⌋, ⌊rowf lat * (2 : ℝ) ^ z⌋, u64 z⟩ := by
  unfold tile rowf
  have hpi := Real.pi_pos
  simp only
  rw [log_tan_cos (by nlinarith) (by nlinarith)]

theorem north_iff {lat : ℝ} (h1 : -90 < lat) (h2 : lat < 90) (y : ℝ) (n : ℝ) (hn : 0 < n) :
    lat ≤ 180 / Real.pi * Real.arctan (Real.sinh (Real.pi * (1 - 2 * y / n))) ↔ y ≤ rowf lat * n := by
  rw [lat_le_iff h1 h2]
  have hpi := Real.pi_pos
  unfold rowf
  generalize Real.arsinh (Real.tan (lat * (Real.pi / 180))) = a
  have : a ≤ Real.pi * (1 - 2 * y / n) ↔ a / Real.pi ≤ 1 - 2 * y / n := by
    rw [div_le_iff₀ hpi, mul_comm]
  rw [this]
  constructor
  · intro h
    have h3 : y / n ≤ (1 - a / Real.pi) / 2 := by
      have : 2 * y / n = 2 * (y / n) := by ring
      linarith
    rwa [div_le_iff₀ hn] at h3
  · intro h
    have h3 : y / n ≤ (1 - a / Real.pi) / 2 := by rwa [div_le_iff₀ hn]
    have : 2 * y / n = 2 * (y / n) := by ring
    linarith

theorem west_iff (lng x n : ℝ) (hn : 0 < n) : x / n * 360 - 180 ≤ lng ↔ x ≤ (lng + 180) / 360 * n := by
  constructor
  · intro h
    have : x / n ≤ (lng + 180) / 360 := by linarith
    rwa [div_le_iff₀ hn] at this
  · intro h
    have : x / n ≤ (lng + 180) / 360 := by rwa [div_le_iff₀ hn]
    linarith

/-- the latitude of a tile edge is strictly between -90 and 90 -/
theorem edge_lat (v : ℝ) : -90 < 180 / Real.pi * Real.arctan (Real.sinh v) ∧
    180 / Real.pi * Real.arctan (Real.sinh v) < 90 := by
  have hpi := Real.pi_pos
  have h1 := Real.neg_pi_div_two_lt_arctan (Real.sinh v)
  have h2 := Real.arctan_lt_pi_div_two (Real.sinh v)
  constructor
  · calc (-90 : ℝ) = 180 / Real.pi * (-(Real.pi / 2)) := by field_simp; norm_num
      _ < _ := by gcongr
  · calc _ < 180 / Real.pi * (Real.pi / 2) := by gcongr
      _ = 90 := by field_simp; norm_num

theorem hasPoint_lat {t : TileID} {lng lat : ℝ} (h : (bounds t).HasPoint lng lat) : -90 < lat ∧ lat < 90 := by
  obtain ⟨_, _, h3, h4⟩ := h
  unfold bounds ul at h3 h4
  simp only at h3 h4
  exact ⟨lt_of_le_of_lt (edge_lat _).1.le h3, lt_of_le_of_lt h4 (edge_lat _).2⟩

/-- C05: the tile of a point is `{x,y,z}` exactly when the point lies in that tile's box (west and north edges
included, east and south excluded). -/
theorem C05_tile_iff_in_bounds (lng lat : ℝ) (x y : Int) (z : Nat) (hz : z < 9223372036854775808)
    (h1 : -90 < lat) (h2 : lat < 90) :
    tile lng lat z = ⟨x, y, z⟩ ↔ (bounds ⟨x, y, z⟩).HasPoint lng lat := by
  rw [tile_Y_eq h1 h2]
  have hn : (0 : ℝ) < 2 ^ z := by positivity
  have hu : u64 (z : Int) = z := by unfold u64; omega
  unfold Extrema.HasPoint bounds ul
  simp only [zpow_natCast, TileID.mk.injEq, hu, and_true, Int.floor_eq_iff]
  rw [west_iff _ _ _ hn, north_iff h1 h2 _ _ hn]
  rw [← not_le (b := lng), west_iff _ _ _ hn, not_le]
  rw [← not_le (a := lat), north_iff h1 h2 _ _ hn, not_le]
  push_cast
  tauto

/-- non-vacuity: the centre of the map at zoom 1 -/
example : tile 0 0 (1 : Nat) = ⟨1, 1, 1⟩ := by
  rw [tile_Y_eq (by norm_num) (by norm_num)]
  unfold rowf
  norm_num [u64]

/-- C05: every point of the Web-Mercator square (the box of the world tile) has a tile of the grid. -/
theorem C05_square_in_grid (lng lat : ℝ) (z : Nat) (hz : z < 9223372036854775808)
    (h : (bounds ⟨0, 0, 0⟩).HasPoint lng lat) : (tile lng lat z).InGrid ∧ (tile lng lat z).Z = z := by
  obtain ⟨h1, h2⟩ := hasPoint_lat h
  have h0 := (C05_tile_iff_in_bounds lng lat 0 0 0 (by norm_num) h1 h2).mpr h
  rw [tile_Y_eq h1 h2] at h0 ⊢
  simp only [TileID.mk.injEq, Nat.cast_zero, zpow_zero, mul_one] at h0
  obtain ⟨hx, hy, _⟩ := h0
  rw [Int.floor_eq_iff] at hx hy
  have hn : (0 : ℝ) < 2 ^ z := by positivity
  simp only [Int.cast_zero, zero_add] at hx hy
  have huz : u64 (z : Int) = z := by unfold u64; omega
  refine ⟨⟨?_, ?_, ?_, ?_⟩, huz⟩
  · simp only [zpow_natCast]; exact Int.floor_nonneg.mpr (by nlinarith)
  · simp only [zpow_natCast, huz]; rw [Int.floor_lt]; push_cast; nlinarith
  · simp only [zpow_natCast]; exact Int.floor_nonneg.mpr (by nlinarith)
  · simp only [zpow_natCast, huz]; rw [Int.floor_lt]; push_cast; nlinarith

example : (bounds ⟨0, 0, 0⟩).HasPoint 13 0 := by
  have h := (C05_tile_iff_in_bounds 13 0 0 0 0 (by norm_num) (by norm_num) (by norm_num)).mp (by
    rw [tile_Y_eq (by norm_num) (by norm_num)]
    unfold rowf
    norm_num [u64])
  exact h

/-- The tile at zoom `z` is obtained from the tile at zoom `z+1` by halving. -/
theorem floor_half (a : ℝ) : ⌊a⌋ = ⌊a * 2⌋ / 2 := by
  rw [Int.floor_eq_iff]
  have h1 := Int.floor_le (a * 2)
  have h2 := Int.lt_floor_add_one (a * 2)
  generalize ⌊a * 2⌋ = k at h1 h2
  have h3 : 2 * (k / 2) ≤ k := by omega
  have h4 : k ≤ 2 * (k / 2) + 1 := by omega
  have h3' : (2 : ℝ) * ((k / 2 : Int) : ℝ) ≤ k := by exact_mod_cast h3
  have h4' : (k : ℝ) ≤ 2 * ((k / 2 : Int) : ℝ) + 1 := by exact_mod_cast h4
  constructor
  · linarith
  · linarith

/-- Tiles whose children's coordinates do not overflow. -/
def NoOverflow (t : TileID) : Prop :=
  -4611686018427387904 ≤ t.X ∧ t.X < 4611686018427387904 ∧ -4611686018427387904 ≤ t.Y ∧ t.Y < 4611686018427387904 ∧
    t.Z + 1 < 9223372036854775808

theorem children_eq (t : TileID) (h : NoOverflow t) : children t =
    [⟨t.X * 2, t.Y * 2, t.Z + 1⟩, ⟨t.X * 2 + 1, t.Y * 2, t.Z + 1⟩, ⟨t.X * 2 + 1, t.Y * 2 + 1, t.Z + 1⟩,
     ⟨t.X * 2, t.Y * 2 + 1, t.Z + 1⟩] := by
  obtain ⟨h1, h2, h3, h4, h5⟩ := h
  unfold children
  have hu : u64 ((t.Z : Int) + 1) = t.Z + 1 := by unfold u64; omega
  rw [i64_of_lt (n := t.X * 2) (by unfold IsI64; omega), i64_of_lt (n := t.Y * 2) (by unfold IsI64; omega),
    i64_of_lt (n := t.X * 2 + 1) (by unfold IsI64; omega), i64_of_lt (n := t.Y * 2 + 1) (by unfold IsI64; omega), hu]

theorem ul_double (X Y : Int) (Z : Nat) : ul ⟨X * 2, Y * 2, Z + 1⟩ = ul ⟨X, Y, Z⟩ := by
  unfold ul
  simp only
  have h1 : ((X * 2 : Int) : ℝ) / 2 ^ (Z + 1) = (X : ℝ) / 2 ^ Z := by
    push_cast; rw [pow_succ]; field_simp
  have h2 : 2 * ((Y * 2 : Int) : ℝ) / 2 ^ (Z + 1) = 2 * (Y : ℝ) / 2 ^ Z := by
    push_cast; rw [pow_succ]; field_simp
  rw [h1, h2]

/-- positive size of every box -/
theorem C04_positive_size (t : TileID) : (bounds t).W < (bounds t).E ∧ (bounds t).S < (bounds t).N := by
  unfold bounds ul
  simp only
  have hn : (0 : ℝ) < 2 ^ t.Z := by positivity
  have hpi := Real.pi_pos
  constructor
  · push_cast
    have : (t.X : ℝ) / 2 ^ t.Z < ((t.X : ℝ) + 1) / 2 ^ t.Z := by gcongr; linarith
    linarith
  · push_cast
    have h1 : Real.pi * (1 - 2 * ((t.Y : ℝ) + 1) / 2 ^ t.Z) < Real.pi * (1 - 2 * (t.Y : ℝ) / 2 ^ t.Z) := by
      gcongr; linarith
    have h2 := Real.arctan_strictMono (Real.sinh_lt_sinh.mpr h1)
    have h3 : 0 < 180 / Real.pi := by positivity
    exact mul_lt_mul_of_pos_left h2 h3

/-- C04: the four children (in the order a, b, c, d of `Children`: NW, NE, SE, SW) share the parent's outer edges and
meet at one meridian `m` and one parallel `p` strictly inside the parent's box. -/
theorem C04_children_edges (t : TileID) (h : NoOverflow t) :
    ∃ a b c d : TileID, ∃ m p : ℝ, children t = [a, b, c, d] ∧
      (bounds t).W < m ∧ m < (bounds t).E ∧ (bounds t).S < p ∧ p < (bounds t).N ∧
      bounds a = { W := (bounds t).W, E := m, N := (bounds t).N, S := p } ∧
      bounds b = { W := m, E := (bounds t).E, N := (bounds t).N, S := p } ∧
      bounds c = { W := m, E := (bounds t).E, N := p, S := (bounds t).S } ∧
      bounds d = { W := (bounds t).W, E := m, N := p, S := (bounds t).S } := by
  obtain ⟨X, Y, Z⟩ := t
  refine ⟨_, _, _, _, (ul ⟨X * 2 + 1, Y * 2 + 1, Z + 1⟩).1, (ul ⟨X * 2 + 1, Y * 2 + 1, Z + 1⟩).2, children_eq _ h, ?_⟩
  have e00 := ul_double X Y Z
  have e11 := ul_double (X + 1) (Y + 1) Z
  have pa := C04_positive_size ⟨X * 2, Y * 2, Z + 1⟩
  have pc := C04_positive_size ⟨X * 2 + 1, Y * 2 + 1, Z + 1⟩
  have s1 : X * 2 + 1 + 1 = (X + 1) * 2 := by ring
  have s2 : Y * 2 + 1 + 1 = (Y + 1) * 2 := by ring
  unfold bounds at *
  simp only [s1, s2, e00, e11] at pa pc ⊢
  refine ⟨pa.1, pc.1, pc.2, pa.2, ?_, ?_, ?_, ?_⟩
  · trivial
  · rw [Extrema.mk.injEq]
    have f1 := congrArg Prod.fst e11
    have f2 := congrArg Prod.snd e00
    exact ⟨rfl, f1, f2, rfl⟩
  · trivial
  · rw [Extrema.mk.injEq]
    have f1 := congrArg Prod.fst e00
    have f2 := congrArg Prod.snd e11
    exact ⟨f1, rfl, rfl, f2⟩

example : NoOverflow ⟨486, 332, 10⟩ := by unfold NoOverflow; decide

/-- C04: every point of the parent's box lies in exactly one child's box; a point of a child's box lies in the
parent's. -/
theorem C04_children_partition_box (t : TileID) (h : NoOverflow t) (lng lat : ℝ) :
    ((bounds t).HasPoint lng lat → ∃! u, u ∈ children t ∧ (bounds u).HasPoint lng lat) ∧
    (∀ u ∈ children t, (bounds u).HasPoint lng lat → (bounds t).HasPoint lng lat) := by
  obtain ⟨h1, h2, h3, h4, h5⟩ := id h
  have half : ∀ u : TileID, -90 < lat → lat < 90 → u.Z = t.Z + 1 →
      ((bounds u).HasPoint lng lat ↔
        (⌊(lng + 180) / 360 * 2 ^ t.Z * 2⌋ = u.X ∧ ⌊rowf lat * 2 ^ t.Z * 2⌋ = u.Y)) := by
    intro u a b hu
    have := C05_tile_iff_in_bounds lng lat u.X u.Y u.Z (by omega) a b
    rw [tile_Y_eq a b, zpow_natCast] at this
    rw [← this]
    have e : u64 (u.Z : Int) = u.Z := by unfold u64; omega
    simp only [TileID.mk.injEq, e, and_true]
    simp only [hu, pow_succ, mul_assoc]
  have whole : -90 < lat → lat < 90 → ((bounds t).HasPoint lng lat ↔
        (⌊(lng + 180) / 360 * 2 ^ t.Z * 2⌋ / 2 = t.X ∧ ⌊rowf lat * 2 ^ t.Z * 2⌋ / 2 = t.Y)) := by
    intro a b
    have := C05_tile_iff_in_bounds lng lat t.X t.Y t.Z (by omega) a b
    rw [tile_Y_eq a b, zpow_natCast] at this
    rw [← this]
    have e : u64 (t.Z : Int) = t.Z := by unfold u64; omega
    simp only [TileID.mk.injEq, e, and_true]
    rw [floor_half ((lng + 180) / 360 * 2 ^ t.Z), floor_half (rowf lat * 2 ^ t.Z)]
  rw [children_eq t h]
  constructor
  · intro hp
    obtain ⟨a, b⟩ := hasPoint_lat hp
    obtain ⟨ex, ey⟩ := (whole a b).mp hp
    refine ⟨⟨⌊(lng + 180) / 360 * 2 ^ t.Z * 2⌋, ⌊rowf lat * 2 ^ t.Z * 2⌋, t.Z + 1⟩, ⟨?_, ?_⟩, ?_⟩
    · simp only [List.mem_cons, TileID.mk.injEq, List.not_mem_nil, or_false, and_true]
      omega
    · rw [half _ a b rfl]; exact ⟨rfl, rfl⟩
    · rintro u ⟨hu, hpu⟩
      have hz : u.Z = t.Z + 1 := by
        simp only [List.mem_cons, List.not_mem_nil, or_false] at hu
        rcases hu with rfl | rfl | rfl | rfl <;> rfl
      rw [half u a b hz] at hpu
      obtain ⟨ux, uy⟩ := hpu
      obtain ⟨X, Y, Z⟩ := u
      simp only at ux uy hz
      rw [ux, uy, hz]
  · intro u hu hpu
    obtain ⟨a, b⟩ := hasPoint_lat hpu
    have hz : u.Z = t.Z + 1 := by
      simp only [List.mem_cons, List.not_mem_nil, or_false] at hu
      rcases hu with rfl | rfl | rfl | rfl <;> rfl
    rw [half u a b hz] at hpu
    rw [whole a b]
    simp only [List.mem_cons, List.not_mem_nil, or_false] at hu
    rcases hu with rfl | rfl | rfl | rfl <;> simp only at hpu <;> omega

theorem center_in_bounds (t : TileID) : (bounds t).HasPoint (center t).1 (center t).2 := by
  obtain ⟨h1, h2⟩ := C04_positive_size t
  unfold Extrema.HasPoint center
  simp only
  refine ⟨?_, ?_, ?_, ?_⟩ <;> linarith

/-- C06: `Center` is the midpoint of the box, strictly inside it. -/
theorem C06_center (t : TileID) :
    (center t).1 - (bounds t).W = (bounds t).E - (center t).1 ∧ (center t).2 - (bounds t).S = (bounds t).N - (center t).2 ∧
    (bounds t).W < (center t).1 ∧ (center t).1 < (bounds t).E ∧
    (bounds t).S < (center t).2 ∧ (center t).2 < (bounds t).N := by
  obtain ⟨h1, h2⟩ := C04_positive_size t
  unfold center
  simp only
  refine ⟨by ring, by ring, ?_, ?_, ?_, ?_⟩ <;> linarith

/-- C06: the parent computed through the lon/lat centre of a child is the tile it came from. -/
theorem C06_parent_of_child (t c : TileID) (h : NoOverflow t) (hc : c ∈ children t) : parent c = t := by
  have hz : c.Z = t.Z + 1 := by
    rw [children_eq t h] at hc
    simp only [List.mem_cons, List.not_mem_nil, or_false] at hc
    rcases hc with rfl | rfl | rfl | rfl <;> rfl
  have h5 := h.2.2.2.2
  have hin := (C04_children_partition_box t h (center c).1 (center c).2).2 c hc (center_in_bounds c)
  obtain ⟨a, b⟩ := hasPoint_lat hin
  have := (C05_tile_iff_in_bounds _ _ t.X t.Y t.Z (by omega) a b).mpr hin
  unfold parent
  simp only
  have e : i64 (c.Z : Int) - 1 = (t.Z : Int) := by
    rw [i64_of_lt (by unfold IsI64; omega)]; omega
  rw [e]; exact this

example : (⟨973, 665, 11⟩ : TileID) ∈ children ⟨486, 332, 10⟩ := by decide

/-- C06: every tile of zoom ≥ 1 (in or out of the grid) is a child of its parent. -/
theorem C06_child_of_parent (c : TileID) (hv : c.Valid) (h1 : 1 ≤ c.Z) (hz : c.Z < 9223372036854775808) :
    c ∈ children (parent c) := by
  obtain ⟨⟨a, b⟩, ⟨a', b'⟩, _⟩ := hv
  let t : TileID := ⟨c.X / 2, c.Y / 2, c.Z - 1⟩
  have hn : NoOverflow t := by
    refine ⟨?_, ?_, ?_, ?_, ?_⟩ <;> simp only [t] <;> omega
  have hm : c ∈ children t := by
    rw [children_eq t hn]
    obtain ⟨X, Y, Z⟩ := c
    simp only [t, List.mem_cons, TileID.mk.injEq, List.not_mem_nil, or_false] at *
    omega
  rw [C06_parent_of_child t c hn hm]
  exact hm

example : (⟨973, 665, 11⟩ : TileID).Valid := by decide

/-- C06, why zoom ≥ 1: the parent of the world tile has the wrapped zoom 2^64-1. -/
theorem C06_world_parent_zoom : (parent ⟨0, 0, 0⟩).Z = 18446744073709551615 := by
  unfold parent tile
  decide

/-- C05, `PolygonTile`: the polygon is one closed ring through the four corners of the box. -/
theorem C05_polygonTile_corners (t : TileID) : ∃ ring, polygonTile t = [ring] ∧ ring.head? = ring.getLast? ∧
    ∀ p : ℝ × ℝ, p ∈ ring ↔ (p.1 = (bounds t).W ∨ p.1 = (bounds t).E) ∧ (p.2 = (bounds t).N ∨ p.2 = (bounds t).S) := by
  refine ⟨_, rfl, rfl, ?_⟩
  rintro ⟨a, b⟩
  simp only [List.mem_cons, Prod.mk.injEq, List.not_mem_nil, or_false]
  tauto

end Verif.Tid
