import Verif.Model.MvtProject
import Verif.Props.TileGeo
import Mathlib.Tactic.Linarith
import Mathlib.Tactic.FieldSimp

/-!
# C35: lon/lat points and tile coordinates (exact arithmetic)
-/
namespace Verif.MvtProj
open Verif.Tid

theorem pole_pos : 0 < pole := by unfold pole; norm_num

/-- the Web-Mercator ordinate of a latitude, two ways -/
theorem log_tan_half {φ : ℝ} (h1 : -(Real.pi / 2) < φ) (h2 : φ < Real.pi / 2) :
    Real.log (Real.tan (Real.pi / 4 + φ / 2)) = Real.arsinh (Real.tan φ) := by
  rw [← log_tan_cos h1 h2]
  congr 1
  have hpi := Real.pi_pos
  have hc : 0 < Real.cos φ := Real.cos_pos_of_mem_Ioo ⟨h1, h2⟩
  have hc2 : 0 < Real.cos (Real.pi / 4 + φ / 2) := Real.cos_pos_of_mem_Ioo ⟨by linarith, by linarith⟩
  -- sin φ = -cos (φ + π/2), cos φ = sin (φ + π/2)
  have e1 : Real.sin φ = 2 * Real.sin (Real.pi / 4 + φ / 2) ^ 2 - 1 := by
    have h := Real.cos_two_mul (Real.pi / 4 + φ / 2)
    have h' : Real.cos (2 * (Real.pi / 4 + φ / 2)) = -Real.sin φ := by
      rw [show 2 * (Real.pi / 4 + φ / 2) = φ + Real.pi / 2 by ring, Real.cos_add_pi_div_two]
    have := Real.sin_sq_add_cos_sq (Real.pi / 4 + φ / 2)
    rw [h'] at h
    linarith
  have e2 : Real.cos φ = 2 * Real.sin (Real.pi / 4 + φ / 2) * Real.cos (Real.pi / 4 + φ / 2) := by
    rw [← Real.sin_two_mul, show 2 * (Real.pi / 4 + φ / 2) = φ + Real.pi / 2 by ring, Real.sin_add_pi_div_two]
  rw [Real.tan_eq_sin_div_cos, Real.tan_eq_sin_div_cos, ← add_div, e1]
  rw [div_eq_div_iff hc2.ne' hc.ne', e2]
  ring

theorem convert_y (p : ℝ × ℝ) (h1 : -90 < p.2) (h2 : p.2 < 90) :
    (convertPoint p).2 = max (-pole) (min (pole * (1 - 2 * rowf p.2)) pole) := by
  have hpi := Real.pi_pos
  unfold convertPoint rowf
  simp only
  have e : (90 + p.2) * Real.pi / 360 = Real.pi / 4 + (p.2 * (Real.pi / 180)) / 2 := by ring
  rw [e, log_tan_half (by nlinarith) (by nlinarith)]
  congr 2
  field_simp
  ring

theorem rowf_edge (y : ℝ) (n : ℝ) :
    rowf (180 / Real.pi * Real.arctan (Real.sinh (Real.pi * (1 - 2 * y / n)))) = y / n := by
  have hpi := Real.pi_pos
  unfold rowf
  have : 180 / Real.pi * Real.arctan (Real.sinh (Real.pi * (1 - 2 * y / n))) * (Real.pi / 180) =
      Real.arctan (Real.sinh (Real.pi * (1 - 2 * y / n))) := by field_simp
  rw [this, Real.tan_arctan, Real.arsinh_sinh]
  field_simp
  ring

theorem clamp_id {a : ℝ} (h1 : -pole ≤ a) (h2 : a ≤ pole) : max (-pole) (min a pole) = a := by
  rw [min_eq_left h2, max_eq_right h1]

/-- the cursor of a tile of the grid -/
theorem cursor_eq (t : TileID) (extent : Int) (hg : t.InGrid) :
    let n : ℝ := 2 ^ t.Z
    let c := newCursorExtent t extent
    c.Bounds.W = pole * (2 * t.X / n - 1) ∧ c.Bounds.N = pole * (1 - 2 * t.Y / n) ∧ c.DeltaX = 2 * pole / n ∧
      c.DeltaY = 2 * pole / n ∧ c.Extent = extent ∧ c.ExtentBool = false := by
  intro n c
  have hn : (0 : ℝ) < 2 ^ t.Z := by positivity
  have hp := pole_pos
  obtain ⟨g1, g2, g3, g4⟩ := hg
  have y0 : (0 : ℝ) ≤ t.Y := by exact_mod_cast g3
  have y1 : (t.Y : ℝ) + 1 ≤ 2 ^ t.Z := by
    have : t.Y + 1 ≤ 2 ^ t.Z := by omega
    exact_mod_cast this
  have cy : ∀ (y : ℝ), 0 ≤ y → y ≤ 2 ^ t.Z →
      (convertPoint ((0 : ℝ), 180 / Real.pi * Real.arctan (Real.sinh (Real.pi * (1 - 2 * y / 2 ^ t.Z))))).2 =
        pole * (1 - 2 * y / 2 ^ t.Z) := by
    intro y h0 h1
    rw [convert_y _ (edge_lat _).1 (edge_lat _).2]
    simp only
    rw [rowf_edge]
    have k0 : 0 ≤ y / 2 ^ t.Z := by positivity
    have k1 : y / 2 ^ t.Z ≤ 1 := (div_le_one hn).2 h1
    rw [clamp_id (by nlinarith) (by nlinarith)]
    ring
  have cy' : ∀ (x y : ℝ), 0 ≤ y → y ≤ 2 ^ t.Z →
      (convertPoint (x, 180 / Real.pi * Real.arctan (Real.sinh (Real.pi * (1 - 2 * y / 2 ^ t.Z))))).2 =
        pole * (1 - 2 * y / 2 ^ t.Z) := fun x y h0 h1 => cy y h0 h1
  have eN := cy' (((t.X + 1 : Int) : ℝ) / 2 ^ t.Z * 360 - 180) t.Y y0 (by linarith)
  have eS := cy' ((t.X : ℝ) / 2 ^ t.Z * 360 - 180) (t.Y + 1) (by linarith) y1
  refine ⟨?_, ?_, ?_, ?_, rfl, rfl⟩
  · show (convertPoint (_, _)).1 = _
    unfold convertPoint bounds ul
    simp only [n]
    ring
  · exact eN
  · show (convertPoint (_, _)).1 - (convertPoint (_, _)).1 = _
    unfold convertPoint bounds ul
    simp only [n]
    push_cast
    field_simp
    ring
  · show (convertPoint (_, _)).2 - (convertPoint (_, _)).2 = _
    have e1 : ((t.Y + 1 : Int) : ℝ) = (t.Y : ℝ) + 1 := by push_cast; ring
    show (convertPoint ((((t.X + 1 : Int) : ℝ) / 2 ^ t.Z * 360 - 180),
        180 / Real.pi * Real.arctan (Real.sinh (Real.pi * (1 - 2 * (t.Y : ℝ) / 2 ^ t.Z))))).2 -
      (convertPoint (((t.X : ℝ) / 2 ^ t.Z * 360 - 180),
        180 / Real.pi * Real.arctan (Real.sinh (Real.pi * (1 - 2 * ((t.Y + 1 : Int) : ℝ) / 2 ^ t.Z))))).2 = _
    rw [e1, eN, eS]
    simp only [n]
    field_simp
    ring

/-- Specification: the position of a lon/lat point in the tile, in units of the tile (0 to 1 from west to east and from
north to south). -/
noncomputable def tilePos (t : TileID) (p : ℝ × ℝ) : ℝ × ℝ :=
  ((p.1 + 180) / 360 * 2 ^ t.Z - t.X, rowf p.2 * 2 ^ t.Z - t.Y)

theorem goRound_near (x : ℝ) : |(goRound x : ℝ) - x| ≤ 1 / 2 := by
  unfold goRound
  split
  · have h1 := Int.floor_le (x + 1 / 2)
    have h2 := Int.lt_floor_add_one (x + 1 / 2)
    rw [abs_le]; constructor <;> linarith
  · have h1 := Int.floor_le (-x + 1 / 2)
    have h2 := Int.lt_floor_add_one (-x + 1 / 2)
    push_cast
    rw [abs_le]; constructor <;> linarith

theorem goRound_int (k : Int) : goRound (k : ℝ) = k := by
  unfold goRound
  split
  · rw [Int.floor_eq_iff]; constructor <;> linarith
  · have : ⌊-(k : ℝ) + 1 / 2⌋ = -k := by rw [Int.floor_eq_iff]; push_cast; constructor <;> linarith
    rw [this]; ring

theorem single_eq (junk : ℝ → Int) (t : TileID) (extent : Int) (hg : t.InGrid) (p : ℝ × ℝ) (h1 : -90 < p.2) (h2 : p.2 < 90)
    (hr : 0 ≤ rowf p.2 ∧ rowf p.2 ≤ 1) :
    singlePoint junk (newCursorExtent t extent) p =
      (toI32 junk ((tilePos t p).1 * extent), toI32 junk ((tilePos t p).2 * extent)) := by
  obtain ⟨eW, eN, eX, eY, eE, eB⟩ := cursor_eq t extent hg
  have hn : (0 : ℝ) < 2 ^ t.Z := by positivity
  have hp := pole_pos
  unfold singlePoint
  simp only
  rw [eW, eN, eX, eY, eE, eB]
  simp only [Bool.false_eq_true, if_false]
  rw [convert_y p h1 h2, clamp_id (by nlinarith [hr.1, hr.2]) (by nlinarith [hr.1, hr.2])]
  have ex : ((convertPoint p).1 - pole * (2 * (t.X : ℝ) / 2 ^ t.Z - 1)) / (2 * pole / 2 ^ t.Z) = (tilePos t p).1 := by
    unfold convertPoint tilePos
    simp only
    field_simp
    ring
  have ey : (pole * (1 - 2 * (t.Y : ℝ) / 2 ^ t.Z) - pole * (1 - 2 * rowf p.2)) / (2 * pole / 2 ^ t.Z) = (tilePos t p).2 := by
    unfold tilePos
    simp only
    field_simp
    ring
  rw [ex, ey]

/-- C35: for every tile of the grid, extent and point of the Web-Mercator square, the coordinates are the position in the
tile times the extent, rounded to a nearest integer (when that fits an int32). -/
theorem C35_nearest (junk : ℝ → Int) (t : TileID) (extent : Int) (hg : t.InGrid) (p : ℝ × ℝ)
    (hp : (bounds ⟨0, 0, 0⟩).HasPoint p.1 p.2)
    (hx : |(tilePos t p).1 * extent| ≤ 2147483647) (hy : |(tilePos t p).2 * extent| ≤ 2147483647) :
    let q := singlePoint junk (newCursorExtent t extent) p
    |(q.1 : ℝ) - (tilePos t p).1 * extent| ≤ 1 / 2 ∧ |(q.2 : ℝ) - (tilePos t p).2 * extent| ≤ 1 / 2 := by
  obtain ⟨h1, h2⟩ := hasPoint_lat hp
  have hr : 0 ≤ rowf p.2 ∧ rowf p.2 ≤ 1 := by
    have := (C05_tile_iff_in_bounds p.1 p.2 0 0 0 (by norm_num) h1 h2).2 hp
    rw [tile_Y_eq h1 h2, TileID.mk.injEq] at this
    have h := this.2.1
    rw [Int.floor_eq_iff] at h
    norm_num at h
    exact ⟨h.1, h.2.le⟩
  intro q
  have e : q = (toI32 junk ((tilePos t p).1 * extent), toI32 junk ((tilePos t p).2 * extent)) :=
    single_eq junk t extent hg p h1 h2 hr
  have fit : ∀ v : ℝ, |v| ≤ 2147483647 → toI32 junk v = goRound v := by
    intro v hv
    unfold toI32
    rw [if_pos]
    obtain ⟨k1, k2⟩ := abs_le.1 (goRound_near v)
    obtain ⟨v1, v2⟩ := abs_le.1 hv
    have a1 : ((-2147483648 : Int) : ℝ) < (goRound v : ℝ) := by push_cast; linarith
    have a2 : (goRound v : ℝ) < ((2147483648 : Int) : ℝ) := by push_cast; linarith
    have b1 : -2147483648 < goRound v := by exact_mod_cast a1
    have b2 : goRound v < 2147483648 := by exact_mod_cast a2
    omega
  rw [e]
  simp only
  rw [fit _ hx, fit _ hy]
  exact ⟨goRound_near _, goRound_near _⟩

/-- the position in the tile agrees with the tile that `Tile` reports: it lies in [0,1) × [0,1) exactly there -/
theorem tilePos_iff (t : TileID) (p : ℝ × ℝ) (hz : t.Z < 9223372036854775808) (h1 : -90 < p.2) (h2 : p.2 < 90) :
    tile p.1 p.2 t.Z = t ↔ 0 ≤ (tilePos t p).1 ∧ (tilePos t p).1 < 1 ∧ 0 ≤ (tilePos t p).2 ∧ (tilePos t p).2 < 1 := by
  rw [tile_Y_eq h1 h2]
  obtain ⟨X, Y, Z⟩ := t
  simp only [TileID.mk.injEq, Int.floor_eq_iff, tilePos, zpow_natCast]
  have hu : Verif.Go.u64 (Z : Int) = Z := by unfold Verif.Go.u64; simp only at hz; omega
  simp only [hu, and_true]
  constructor
  · rintro ⟨⟨a, b⟩, c, d⟩; exact ⟨by linarith, by linarith, by linarith, by linarith⟩
  · rintro ⟨a, b, c, d⟩; exact ⟨⟨by linarith, by linarith⟩, by linarith, by linarith⟩

/-- C35: a point in the tile (as `Tile` says) has coordinates from 0 to the extent, without any clamping. -/
theorem C35_inside (junk : ℝ → Int) (t : TileID) (extent : Int) (hg : t.InGrid) (hz : t.Z < 9223372036854775808)
    (he : 0 ≤ extent) (he2 : extent ≤ 2147483647) (p : ℝ × ℝ) (h1 : -90 < p.2) (h2 : p.2 < 90) (hp : tile p.1 p.2 t.Z = t) :
    let q := singlePoint junk (newCursorExtent t extent) p
    0 ≤ q.1 ∧ q.1 ≤ extent ∧ 0 ≤ q.2 ∧ q.2 ≤ extent := by
  obtain ⟨a, b, c, d⟩ := (tilePos_iff t p hz h1 h2).1 hp
  have hn : (0 : ℝ) < 2 ^ t.Z := by positivity
  obtain ⟨g1, g2, g3, g4⟩ := hg
  have y0 : (0 : ℝ) ≤ t.Y := by exact_mod_cast g3
  have y1 : (t.Y : ℝ) + 1 ≤ 2 ^ t.Z := by
    have : t.Y + 1 ≤ 2 ^ t.Z := by omega
    exact_mod_cast this
  have hr : 0 ≤ rowf p.2 ∧ rowf p.2 ≤ 1 := by
    unfold tilePos at c d
    simp only at c d
    constructor
    · by_contra hc
      push Not at hc
      nlinarith
    · by_contra hc
      push Not at hc
      nlinarith
  intro q
  have e : q = (toI32 junk ((tilePos t p).1 * extent), toI32 junk ((tilePos t p).2 * extent)) :=
    single_eq junk t extent ⟨g1, g2, g3, g4⟩ p h1 h2 hr
  have key : ∀ f : ℝ, 0 ≤ f → f < 1 → 0 ≤ toI32 junk (f * extent) ∧ toI32 junk (f * extent) ≤ extent := by
    intro f f0 f1
    have e0 : (0 : ℝ) ≤ extent := by exact_mod_cast he
    have l0 : 0 ≤ f * extent := by positivity
    have l1 : f * extent ≤ extent := by nlinarith
    have r0 : 0 ≤ goRound (f * extent) := by
      unfold goRound
      rw [if_pos l0]
      apply Int.floor_nonneg.2; linarith
    have r1 : goRound (f * extent) ≤ extent := by
      unfold goRound
      rw [if_pos l0]
      have : ⌊f * extent + 1 / 2⌋ < extent + 1 := by
        rw [Int.floor_lt]; push_cast; linarith
      omega
    unfold toI32
    rw [if_pos ⟨by omega, by omega⟩]
    exact ⟨r0, r1⟩
  rw [e]
  exact ⟨(key _ a b).1, (key _ a b).2, (key _ c d).1, (key _ c d).2⟩

/-- C35: with clamping asked for, the coordinates are from 0 to the extent, whatever the point, the cursor and the outcome of
a conversion that does not fit. -/
theorem C35_clamped (junk : ℝ → Int) (c : Cursor) (p : ℝ × ℝ) (hb : c.ExtentBool = true) (he : 0 ≤ c.Extent) :
    let q := singlePoint junk c p
    0 ≤ q.1 ∧ q.1 ≤ c.Extent ∧ 0 ≤ q.2 ∧ q.2 ≤ c.Extent := by
  have key : ∀ v, 0 ≤ clampCoord c.Extent v ∧ clampCoord c.Extent v ≤ c.Extent := by
    intro v
    unfold clampCoord
    simp only
    split <;> split <;> omega
  unfold singlePoint
  simp only [hb, if_true]
  exact ⟨(key _).1, (key _).2, (key _).1, (key _).2⟩

/-- C35: clamping moves each coordinate to the nearest value in range and leaves those in range alone. -/
theorem C35_clamp_exact (junk : ℝ → Int) (c : Cursor) (p : ℝ × ℝ) (hb : c.ExtentBool = true) (he : 0 ≤ c.Extent) :
    let q := singlePoint junk { c with ExtentBool := false } p
    singlePoint junk c p = (max 0 (min c.Extent q.1), max 0 (min c.Extent q.2)) := by
  have key : ∀ v, clampCoord c.Extent v = max 0 (min c.Extent v) := by
    intro v
    unfold clampCoord
    simp only
    split <;> split <;> omega
  unfold singlePoint
  simp only [hb, if_true, Bool.false_eq_true, if_false, key]

theorem rowf_project (w : ℝ) : rowf (360 / Real.pi * Real.arctan (Real.exp w) - 90) = (1 - w / Real.pi) / 2 ∧
    -90 < 360 / Real.pi * Real.arctan (Real.exp w) - 90 ∧ 360 / Real.pi * Real.arctan (Real.exp w) - 90 < 90 := by
  have hpi := Real.pi_pos
  have hex := Real.exp_pos w
  have a0 : 0 < Real.arctan (Real.exp w) := by
    have := Real.arctan_strictMono hex
    rwa [Real.arctan_zero] at this
  have a1 := Real.arctan_lt_pi_div_two (Real.exp w)
  have b0 : 0 < 360 / Real.pi * Real.arctan (Real.exp w) := by positivity
  have b1 : 360 / Real.pi * Real.arctan (Real.exp w) < 180 := by
    calc 360 / Real.pi * Real.arctan (Real.exp w) < 360 / Real.pi * (Real.pi / 2) := by gcongr
      _ = 180 := by field_simp; norm_num
  refine ⟨?_, by linarith, by linarith⟩
  unfold rowf
  have e : (360 / Real.pi * Real.arctan (Real.exp w) - 90) * (Real.pi / 180) = 2 * Real.arctan (Real.exp w) - Real.pi / 2 := by
    field_simp
    ring
  rw [e, ← log_tan_half (by linarith) (by linarith)]
  have e2 : Real.pi / 4 + (2 * Real.arctan (Real.exp w) - Real.pi / 2) / 2 = Real.arctan (Real.exp w) := by ring
  rw [e2, Real.tan_arctan, Real.log_exp]

theorem project_pos (t : TileID) (extent : Int) (he : 0 < extent) (q : ℝ × ℝ) :
    tilePos t (toLonLat t extent q) = (q.1 / extent, q.2 / extent) ∧ -90 < (toLonLat t extent q).2 ∧ (toLonLat t extent q).2 < 90 ∧
      rowf (toLonLat t extent q).2 = (q.2 + extent * t.Y) / (extent * 2 ^ t.Z) := by
  have hn : (0 : ℝ) < 2 ^ t.Z := by positivity
  have e0 : (0 : ℝ) < extent := by exact_mod_cast he
  have hpi := Real.pi_pos
  obtain ⟨r1, r2, r3⟩ := rowf_project ((180 - (q.2 + extent * t.Y) * 360 / (extent * 2 ^ t.Z)) * Real.pi / 180)
  have hrow : rowf (toLonLat t extent q).2 = (q.2 + extent * t.Y) / (extent * 2 ^ t.Z) := by
    unfold toLonLat projectPt
    simp only
    rw [r1]
    field_simp
    ring
  refine ⟨?_, r2, r3, hrow⟩
  unfold tilePos
  rw [hrow]
  unfold toLonLat projectPt
  simp only [Prod.mk.injEq]
  constructor
  · field_simp
    ring
  · field_simp
    ring

/-- C35: a grid coordinate projected to lon/lat and converted back is itself: for every tile of the grid, positive extent, every
x of the int32 range and every y of it whose point is on the map. -/
theorem C35_roundtrip (junk : ℝ → Int) (t : TileID) (extent : Int) (hg : t.InGrid) (he : 0 < extent) (x y : Int)
    (hx : -2147483648 ≤ x ∧ x ≤ 2147483647) (hy : -2147483648 ≤ y ∧ y ≤ 2147483647)
    (hmap : 0 ≤ y + extent * t.Y ∧ y + extent * t.Y ≤ extent * 2 ^ t.Z) :
    singlePoint junk (newCursorExtent t extent) (toLonLat t extent (x, y)) = (x, y) := by
  obtain ⟨hpos, h1, h2, hrow⟩ := project_pos t extent he (x, y)
  have hn : (0 : ℝ) < 2 ^ t.Z := by positivity
  have e0 : (0 : ℝ) < extent := by exact_mod_cast he
  have m1 : (0 : ℝ) ≤ (y : ℝ) + extent * t.Y := by exact_mod_cast hmap.1
  have m2 : (y : ℝ) + extent * t.Y ≤ extent * 2 ^ t.Z := by exact_mod_cast hmap.2
  rw [single_eq junk t extent hg _ h1 h2]
  · rw [hpos]
    simp only
    rw [div_mul_cancel₀ _ e0.ne', div_mul_cancel₀ _ e0.ne']
    have fit : ∀ k : Int, -2147483648 ≤ k ∧ k ≤ 2147483647 → toI32 junk (k : ℝ) = k := by
      intro k hk
      unfold toI32
      rw [goRound_int, if_pos hk]
    rw [fit x hx, fit y hy]
  · rw [hrow]
    simp only
    exact ⟨by positivity, (div_le_one (by positivity)).2 m2⟩

/-- C35: the coordinates 0 to extent are always on the map. -/
theorem C35_roundtrip_inside (junk : ℝ → Int) (t : TileID) (extent : Int) (hg : t.InGrid) (he : 0 < extent) (he2 : extent ≤ 2147483647)
    (x y : Int) (hx : 0 ≤ x ∧ x ≤ extent) (hy : 0 ≤ y ∧ y ≤ extent) :
    singlePoint junk (newCursorExtent t extent) (toLonLat t extent (x, y)) = (x, y) := by
  obtain ⟨g1, g2, g3, g4⟩ := hg
  apply C35_roundtrip junk t extent ⟨g1, g2, g3, g4⟩ he x y (by omega) (by omega)
  constructor
  · have := mul_nonneg he.le g3; omega
  · have : extent * (t.Y + 1) ≤ extent * 2 ^ t.Z := by
      apply mul_le_mul_of_nonneg_left _ he.le
      omega
    have e : extent * (t.Y + 1) = extent * t.Y + extent := by ring
    omega

/-- C35: the other way round, a lon/lat point converted and projected back moves by at most half a grid unit (position in the
tile). -/
theorem C35_back (junk : ℝ → Int) (t : TileID) (extent : Int) (hg : t.InGrid) (he : 0 < extent) (p : ℝ × ℝ)
    (hp : (bounds ⟨0, 0, 0⟩).HasPoint p.1 p.2)
    (hx : |(tilePos t p).1 * extent| ≤ 2147483647) (hy : |(tilePos t p).2 * extent| ≤ 2147483647) :
    let q := singlePoint junk (newCursorExtent t extent) p
    let p' := toLonLat t extent (q.1, q.2)
    |(tilePos t p').1 - (tilePos t p).1| ≤ 1 / (2 * extent) ∧ |(tilePos t p').2 - (tilePos t p).2| ≤ 1 / (2 * extent) := by
  intro q p'
  obtain ⟨n1, n2⟩ := C35_nearest junk t extent hg p hp hx hy
  have e0 : (0 : ℝ) < extent := by exact_mod_cast he
  have hpos := (project_pos t extent he (q.1, q.2)).1
  have conv : ∀ k f : ℝ, |k - f * extent| ≤ 1 / 2 → |k / extent - f| ≤ 1 / (2 * extent) := by
    intro k f h
    have : k / extent - f = (k - f * extent) / extent := by field_simp
    rw [this, abs_div, abs_of_pos e0, div_le_div_iff₀ e0 (by positivity)]
    nlinarith
  have e : tilePos t p' = ((q.1 : ℝ) / extent, (q.2 : ℝ) / extent) := hpos
  rw [e]
  exact ⟨conv _ _ n1, conv _ _ n2⟩

/-- C35: a y coordinate off the map is not returned: -1 in the top row of the world tile comes back as 0. -/
theorem C35_off_map (junk : ℝ → Int) : singlePoint junk (newCursorExtent ⟨0, 0, 0⟩ 4096) (toLonLat ⟨0, 0, 0⟩ 4096 (0, -1)) = (0, 0) := by
  obtain ⟨hpos, h1, h2, hrow⟩ := project_pos ⟨0, 0, 0⟩ 4096 (by norm_num) (0, -1)
  obtain ⟨eW, eN, eX, eY, eE, eB⟩ := cursor_eq ⟨0, 0, 0⟩ 4096 ⟨by norm_num, by norm_num, by norm_num, by norm_num⟩
  have hp := pole_pos
  unfold singlePoint
  simp only
  rw [eW, eN, eX, eY, eE, eB]
  simp only [Bool.false_eq_true, if_false]
  have c2 : (convertPoint (toLonLat ⟨0, 0, 0⟩ 4096 (0, -1))).2 = pole := by
    rw [convert_y _ h1 h2, hrow]
    rw [min_eq_right, max_eq_right (by linarith)]
    norm_num
    nlinarith
  have c1 : (convertPoint (toLonLat ⟨0, 0, 0⟩ 4096 (0, -1))).1 = -pole := by
    unfold convertPoint toLonLat projectPt
    norm_num
  rw [c1, c2]
  have z0 : toI32 junk 0 = 0 := by
    have := goRound_int 0
    rw [Int.cast_zero] at this
    unfold toI32
    rw [this]; norm_num
  norm_num
  exact z0

/-- a case that meets the hypotheses -/
theorem C35_example (junk : ℝ → Int) :
    singlePoint junk (newCursorExtent ⟨5, 3, 3⟩ 4096) (toLonLat ⟨5, 3, 3⟩ 4096 (((1000 : Int) : ℝ), ((-64 : Int) : ℝ))) = (1000, -64) :=
  C35_roundtrip junk ⟨5, 3, 3⟩ 4096 ⟨by norm_num, by norm_num, by norm_num, by norm_num⟩ (by norm_num) 1000 (-64)
    (by norm_num) (by norm_num) (by norm_num)

/-- **C35.** `ConvertPoint` gives Web-Mercator metres: 20037508.34 m from the centre of the map to each edge, and latitudes beyond the map's
edge are moved to the edge. -/
theorem C35_mercator (p : ℝ × ℝ) (h1 : -90 < p.2) (h2 : p.2 < 90) :
    convertPoint p = (20037508.34 * (p.1 / 180), 20037508.34 * (1 - 2 * max 0 (min 1 (rowf p.2)))) := by
  have hP : pole = 20037508.34 := by unfold pole; norm_num
  refine Prod.ext ?_ ?_
  · unfold convertPoint
    simp only [hP]
    ring
  · rw [convert_y p h1 h2, hP]
    simp only
    rcases le_total (rowf p.2) 1 with a | a
    · rcases le_total 0 (rowf p.2) with b | b
      · rw [min_eq_left (by linarith), max_eq_right (by linarith), min_eq_right a, max_eq_right b]
      · rw [min_eq_right (by linarith), max_eq_right (by linarith), min_eq_right a, max_eq_left b]
        ring
    · rw [min_eq_left (by linarith), max_eq_left (by linarith), min_eq_left a, max_eq_right (by norm_num)]
      ring

example : convertPoint (180, 0) = (20037508.34, 0) := by
  rw [C35_mercator _ (by norm_num) (by norm_num)]
  have : rowf 0 = 1 / 2 := by unfold rowf; simp
  rw [this]
  norm_num

end Verif.MvtProj
