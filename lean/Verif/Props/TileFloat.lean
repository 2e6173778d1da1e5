import Verif.Proof.TileFloat

/-! # C75: tile geometry in float64 arithmetic -/
namespace Verif.Tid.Float
open Verif.Go Verif.F64

theorem worldY_eq {lat : ℝ} (h1 : -90 < lat) (h2 : lat < 90) : worldY lat = rowf lat := by
  rw [rowf_L h1 h2]
  unfold worldY L
  rw [show lat / 180 * Real.pi = lat * (Real.pi / 180) by ring]

theorem floor_near {q : ℚ} {x d : ℝ} {k : ℤ} (h : |(q : ℝ) - x| < d) (h1 : k + d ≤ x) (h2 : x ≤ k + 1 - d) : ⌊q⌋ = k := by
  obtain ⟨a, b⟩ := abs_lt.mp h
  rw [Int.floor_eq_iff]
  have e1 : (k : ℝ) ≤ q := by linarith
  have e2 : (q : ℝ) < k + 1 := by linarith
  exact ⟨by exact_mod_cast e1, by exact_mod_cast e2⟩

/-- floors of the rounded column and row -/
theorem tile_of_near {M : MathLib} (hM : Accurate M) (lng lat : ℚ) (hx : |(lng : ℝ)| ≤ 181) (hy : |(lat : ℝ)| ≤ 85.5)
    (X Y z : ℤ) (u : ℕ) (hu : u64 z = u) {d : ℝ} (hd : 2 ^ z * (300 * eps) < d)
    (x1 : X + d ≤ worldX lng * 2 ^ z) (x2 : worldX lng * 2 ^ z ≤ X + 1 - d)
    (y1 : Y + d ≤ worldY lat * 2 ^ z) (y2 : worldY lat * 2 ^ z ≤ Y + 1 - d) :
    tile M lng lat z = ⟨X, Y, u⟩ := by
  have hn : (0 : ℝ) < 2 ^ z := by positivity
  have he := eps_pos
  obtain ⟨l1, l2⟩ := abs_le.mp hy
  have c := col_near lng hx z
  have r := row_near hM lat hy z
  rw [worldY_eq (by linarith) (by linarith)] at y1 y2
  unfold worldX at x1 x2
  have hc : (2 : ℝ) ^ z * eps ≤ 2 ^ z * (300 * eps) := by gcongr; linarith
  unfold tile
  simp only
  rw [floor_near (c.trans_lt (hc.trans_lt hd)) x1 x2, floor_near (r.trans_lt hd) y1 y2, hu]

/-- **C75** In float64 `Tile` gives the tile a position lies in, provided the position is not within 2^-41 of the map's
width of an edge of the tile. -/
theorem C75_tile {M : MathLib} (hM : Accurate M) (lng lat : ℚ) (hx : |(lng : ℝ)| ≤ 181) (hy : |(lat : ℝ)| ≤ 85.5)
    (t : TileID) (hz : t.Z < 9223372036854775808)
    (x1 : (t.X : ℝ) / 2 ^ t.Z + 1 / 2 ^ 41 ≤ worldX lng) (x2 : worldX lng ≤ (t.X + 1 : ℝ) / 2 ^ t.Z - 1 / 2 ^ 41)
    (y1 : (t.Y : ℝ) / 2 ^ t.Z + 1 / 2 ^ 41 ≤ worldY lat) (y2 : worldY lat ≤ (t.Y + 1 : ℝ) / 2 ^ t.Z - 1 / 2 ^ 41) :
    tile M lng lat (t.Z : ℤ) = t := by
  have hn : (0 : ℝ) < 2 ^ t.Z := by positivity
  have he : (300 : ℝ) * eps < 1 / 2 ^ 41 := by unfold eps; norm_num
  have lo : ∀ a w : ℝ, a / 2 ^ t.Z + 1 / 2 ^ 41 ≤ w → a + 2 ^ t.Z * (1 / 2 ^ 41) ≤ w * 2 ^ t.Z := by
    intro a w h
    calc a + 2 ^ t.Z * (1 / 2 ^ 41) = (a / 2 ^ t.Z + 1 / 2 ^ 41) * 2 ^ t.Z := by field_simp
      _ ≤ _ := by gcongr
  have hi : ∀ a w : ℝ, w ≤ a / 2 ^ t.Z - 1 / 2 ^ 41 → w * 2 ^ t.Z ≤ a - 2 ^ t.Z * (1 / 2 ^ 41) := by
    intro a w h
    calc w * 2 ^ t.Z ≤ (a / 2 ^ t.Z - 1 / 2 ^ 41) * 2 ^ t.Z := by gcongr
      _ = _ := by field_simp
  have := tile_of_near hM lng lat hx hy t.X t.Y t.Z t.Z (by unfold u64; omega) (d := 2 ^ t.Z * (1 / 2 ^ 41))
    (by rw [zpow_natCast]; gcongr) (by rw [zpow_natCast]; exact lo _ _ x1) (by rw [zpow_natCast]; exact hi _ _ x2)
    (by rw [zpow_natCast]; exact lo _ _ y1) (by rw [zpow_natCast]; exact hi _ _ y2)
  exact this

/-- **C75** In float64 the edges `Bounds` gives are within 2·10^-12 degrees of the exact ones. -/
theorem C75_bounds {M : MathLib} (hM : Accurate M) (t : TileID) (hg : t.InGrid) (hz : t.Z ≤ 50) :
    |((bounds M t).W : ℝ) - (Tid.bounds t).W| ≤ 2 / 10 ^ 12 ∧ |((bounds M t).E : ℝ) - (Tid.bounds t).E| ≤ 2 / 10 ^ 12 ∧
    |((bounds M t).N : ℝ) - (Tid.bounds t).N| ≤ 2 / 10 ^ 12 ∧ |((bounds M t).S : ℝ) - (Tid.bounds t).S| ≤ 2 / 10 ^ 12 := by
  obtain ⟨s1, s2⟩ := small_of_grid hg hz
  rw [bounds_eq M hg hz]
  have e1 : 70 * eps ≤ 2 / 10 ^ 12 := by unfold eps; norm_num
  have e2 : 1900 * eps ≤ 2 / 10 ^ 12 := by unfold eps; norm_num
  exact ⟨(lon_near M s1).1.trans e1, (lon_near M s2).1.trans e1, (lat_near hM s1).trans e2, (lat_near hM s2).trans e2⟩

/-- rows and columns of the rounded centre -/
theorem center_world {M : MathLib} (hM : Accurate M) {t : TileID} (hg : t.InGrid) (hz : t.Z ≤ 50) :
    |((center M t).1 : ℝ)| ≤ 181 ∧ |((center M t).2 : ℝ)| ≤ 85.5 ∧
      |worldX (center M t).1 * 2 ^ t.Z - (t.X + 1 / 2)| ≤ 2 ^ t.Z * eps ∧
      (t.Y : ℝ) + 1 / 26 - 2 ^ t.Z * (80 * eps) ≤ worldY (center M t).2 * 2 ^ t.Z ∧
      worldY (center M t).2 * 2 ^ t.Z ≤ t.Y + 1 - 1 / 26 + 2 ^ t.Z * (80 * eps) := by
  have he := eps_pos
  have he1 : eps ≤ 1 / 1000000 := by unfold eps; norm_num
  have hn : (0 : ℝ) < 2 ^ t.Z := by positivity
  obtain ⟨cx, cy⟩ := center_near hM hg hz
  obtain ⟨ix, iy1, iy2, b2, b1⟩ := center_inside hg hz
  have hpi := Real.pi_pos
  have hpi1 := Real.pi_gt_d2
  have hpi2 := Real.pi_lt_d6
  generalize ((center M t).1 : ℝ) = fx at *
  generalize ((center M t).2 : ℝ) = fy at *
  generalize (Tid.center t).1 = ex at *
  generalize (Tid.center t).2 = ey at *
  obtain ⟨cx1, cx2⟩ := abs_le.mp cx
  obtain ⟨cy1, cy2⟩ := abs_le.mp cy
  obtain ⟨p1, p2⟩ := abs_le.mp b1
  obtain ⟨p3, p4⟩ := abs_le.mp b2
  have bfy : |fy| ≤ 85.5 := by rw [abs_le]; constructor <;> linarith
  refine ⟨by rw [abs_le]; constructor <;> linarith, bfy, ?_, ?_⟩
  · rw [← ix]
    unfold worldX
    rw [← sub_mul, abs_mul, abs_of_pos hn, mul_comm]
    gcongr
    rw [← sub_div, abs_div, abs_of_pos (show (0 : ℝ) < 360 by norm_num), div_le_iff₀ (by norm_num)]
    rw [abs_le]; constructor <;> linarith
  · have k0 : 0 < Real.pi / 180 := by positivity
    have k1 : Real.pi / 180 ≤ 3.141593 / 180 := by gcongr
    have dom : ∀ x : ℝ, |x| ≤ 85.5 → |x * (Real.pi / 180)| ≤ 1.4923 := by
      intro x hx
      rw [abs_mul, abs_of_pos k0]
      calc |x| * (Real.pi / 180) ≤ 85.5 * (3.141593 / 180) := by gcongr
        _ ≤ 1.4923 := by norm_num
    have lip := L_lip (dom fy bfy) (dom ey (by linarith))
    rw [← sub_mul, abs_mul, abs_of_pos k0] at lip
    have hrow : |worldY fy - rowf ey| ≤ 80 * eps := by
      obtain ⟨q1, q2⟩ := abs_le.mp bfy
      rw [worldY_eq (by linarith) (by linarith), rowf_L (by linarith) (by linarith), rowf_L (by linarith) (by linarith)]
      generalize L (fy * (Real.pi / 180)) = A at *
      generalize L (ey * (Real.pi / 180)) = B at *
      have e : (1 - A / Real.pi) / 2 - (1 - B / Real.pi) / 2 = -((A - B) / (2 * Real.pi)) := by field_simp; ring
      rw [e, abs_neg, abs_div, abs_of_pos (by positivity : 0 < 2 * Real.pi), div_le_iff₀ (by positivity)]
      have : |fy - ey| * (Real.pi / 180) ≤ 2000 * eps * (3.141593 / 180) := by gcongr
      have h2 : 80 * eps * (2 * 3.14) ≤ 80 * eps * (2 * Real.pi) := by gcongr
      linarith
    obtain ⟨r1, r2⟩ := abs_le.mp hrow
    constructor
    · have : (rowf ey - 80 * eps) * 2 ^ t.Z ≤ worldY fy * 2 ^ t.Z := by gcongr; linarith
      linarith
    · have : worldY fy * 2 ^ t.Z ≤ (rowf ey + 80 * eps) * 2 ^ t.Z := by gcongr; linarith
      linarith

theorem pow_le36 {Z : ℕ} (hz : Z ≤ 35) : (2 : ℝ) ^ Z ≤ 2 ^ 35 := pow_le_pow_right₀ (by norm_num) hz

/-- **C75** In float64, up to zoom 35: the tile of the centre of a tile is that tile. -/
theorem C75_tile_center {M : MathLib} (hM : Accurate M) (t : TileID) (hg : t.InGrid) (hz : t.Z ≤ 35) :
    tile M (center M t).1 (center M t).2 (t.Z : ℤ) = t := by
  obtain ⟨a, b, c, d1, d2⟩ := center_world hM hg (by omega)
  have hp := pow_le36 hz
  have he := eps_pos
  have hs : (2 : ℝ) ^ t.Z * eps ≤ 1 / 32768 := by
    calc (2 : ℝ) ^ t.Z * eps ≤ 2 ^ 35 * eps := by gcongr
      _ ≤ 1 / 32768 := by unfold eps; norm_num
  obtain ⟨c1, c2⟩ := abs_le.mp c
  refine tile_of_near hM _ _ a b t.X t.Y t.Z t.Z (by unfold u64; omega) (d := 2 ^ t.Z * (301 * eps)) ?_ ?_ ?_ ?_ ?_
  · rw [zpow_natCast]
    gcongr
    linarith
  all_goals rw [zpow_natCast]; nlinarith

theorem i64_pred {a b : ℕ} (h : a = b + 1) (hb : b + 1 ≤ 35) : i64 (a : ℤ) - 1 = (b : ℤ) := by
  have hi : IsI64 (a : ℤ) := by unfold IsI64; omega
  rw [i64_of_lt hi]
  omega

theorem u64_nat {a : ℕ} (h : a ≤ 50) : u64 (a : ℤ) = a := by unfold u64; omega

/-- **C75** In float64, up to zoom 35: `Parent` of a child is the tile whose child it is. -/
theorem C75_parent_of_child {M : MathLib} (hM : Accurate M) (t c : TileID) (hg : t.InGrid) (hz : t.Z + 1 ≤ 35)
    (hc : c ∈ children t) : parent M c = t := by
  obtain ⟨gc, _⟩ := children_inGrid hg (by omega) hc
  have hcz : c.Z = t.Z + 1 ∧ c.X / 2 = t.X ∧ c.Y / 2 = t.Y := by
    have hp : (2 : ℤ) ^ t.Z ≤ 2 ^ 50 := pow_le_pow_right₀ (by norm_num) (by omega)
    norm_num at hp
    obtain ⟨x0, x1, y0, y1⟩ := hg
    rw [children_eq t (by unfold NoOverflow; omega)] at hc
    fin_cases hc <;> refine ⟨rfl, ?_, ?_⟩ <;> simp only <;> omega
  obtain ⟨ez, ex, ey⟩ := hcz
  obtain ⟨a, b, cc, d1, d2⟩ := center_world hM gc (by omega)
  have hp := pow_le36 (Z := c.Z) (by omega)
  have he := eps_pos
  have hs : (2 : ℝ) ^ c.Z * eps ≤ 1 / 32768 := by
    calc (2 : ℝ) ^ c.Z * eps ≤ 2 ^ 35 * eps := by gcongr
      _ ≤ 1 / 32768 := by unfold eps; norm_num
  obtain ⟨c1, c2⟩ := abs_le.mp cc
  unfold parent
  simp only
  have hzi := i64_pred ez hz
  rw [hzi]
  rw [ez, pow_succ] at c1 c2 d1 d2 hs
  have fx : (t.X : ℝ) * 2 ≤ c.X ∧ (c.X : ℝ) ≤ t.X * 2 + 1 := by
    have h1 : t.X * 2 ≤ c.X := by omega
    have h2 : c.X ≤ t.X * 2 + 1 := by omega
    exact ⟨by exact_mod_cast h1, by exact_mod_cast h2⟩
  have fy : (t.Y : ℝ) * 2 ≤ c.Y ∧ (c.Y : ℝ) ≤ t.Y * 2 + 1 := by
    have h1 : t.Y * 2 ≤ c.Y := by omega
    have h2 : c.Y ≤ t.Y * 2 + 1 := by omega
    exact ⟨by exact_mod_cast h1, by exact_mod_cast h2⟩
  refine tile_of_near hM _ _ a b t.X t.Y t.Z t.Z (u64_nat (by omega)) (d := 2 ^ t.Z * (301 * eps)) ?_ ?_ ?_ ?_ ?_
  · rw [zpow_natCast]
    gcongr
    linarith
  all_goals
    rw [zpow_natCast]
    clear hp
    generalize (2 : ℝ) ^ t.Z = n at *
    linarith [fx.1, fx.2, fy.1, fy.2]

/-- **C75** In float64, whatever the functions of package `math` compute: the boxes of neighbours and of children meet
without gap or overlap, bit for bit. -/
theorem C75_shared_edges (M : MathLib) (t : TileID) (hg : t.InGrid) (hz : t.Z ≤ 49) :
    ∃ a b c d : TileID, ∃ m p : ℚ, children t = [a, b, c, d] ∧
      bounds M a = { W := (bounds M t).W, E := m, N := (bounds M t).N, S := p } ∧
      bounds M b = { W := m, E := (bounds M t).E, N := (bounds M t).N, S := p } ∧
      bounds M c = { W := m, E := (bounds M t).E, N := p, S := (bounds M t).S } ∧
      bounds M d = { W := (bounds M t).W, E := m, N := p, S := (bounds M t).S } := by
  obtain ⟨X, Y, Z⟩ := t
  have hp : (2 : ℤ) ^ Z ≤ 2 ^ 49 := pow_le_pow_right₀ (by norm_num) hz
  norm_num at hp
  obtain ⟨s1, s2⟩ := small_of_grid hg (by simp only at hz ⊢; omega)
  have hg' := hg
  obtain ⟨x0, x1, y0, y1⟩ := hg'
  simp only at x0 x1 y0 y1 hz
  have hpow : (2 : ℤ) ^ (Z + 1) = 2 * 2 ^ Z := by rw [pow_succ]; ring
  have grid : ∀ i j : ℤ, (i = 0 ∨ i = 1) → (j = 0 ∨ j = 1) → (⟨X * 2 + i, Y * 2 + j, Z + 1⟩ : TileID).InGrid := by
    intro i j hi hj
    unfold TileID.InGrid
    simp only [hpow]
    omega
  have small : ∀ i j : ℤ, (0 ≤ i ∧ i ≤ 2) → (0 ≤ j ∧ j ≤ 2) → Small ⟨X * 2 + i, Y * 2 + j, Z + 1⟩ := by
    intro i j hi hj
    unfold Small
    simp only [hpow]
    omega
  have dbl : ∀ x y : ℤ, Small ⟨x, y, Z⟩ → Small ⟨x * 2, y * 2, Z + 1⟩ → ul M ⟨x * 2, y * 2, Z + 1⟩ = ul M ⟨x, y, Z⟩ := by
    intro x y h1 h2
    rw [ul_eq M h1, ul_eq M h2]
    simp only
    have e1 : ((x * 2 : ℤ) : ℚ) / 2 ^ (Z + 1) = x / 2 ^ Z := by push_cast; rw [pow_succ]; field_simp
    have e2 : 2 * ((y * 2 : ℤ) : ℚ) / 2 ^ (Z + 1) = 2 * y / 2 ^ Z := by push_cast; rw [pow_succ]; field_simp
    rw [e1, e2]
  have ulx : ∀ x y y' : ℤ, Small ⟨x, y, Z + 1⟩ → Small ⟨x, y', Z + 1⟩ → (ul M ⟨x, y, Z + 1⟩).1 = (ul M ⟨x, y', Z + 1⟩).1 := by
    intro x y y' h1 h2
    rw [ul_eq M h1, ul_eq M h2]
  have uly : ∀ x x' y : ℤ, Small ⟨x, y, Z + 1⟩ → Small ⟨x', y, Z + 1⟩ → (ul M ⟨x, y, Z + 1⟩).2 = (ul M ⟨x', y, Z + 1⟩).2 := by
    intro x x' y h1 h2
    rw [ul_eq M h1, ul_eq M h2]
  have m00 : Small ⟨X * 2, Y * 2, Z + 1⟩ := by simpa using small 0 0 (by omega) (by omega)
  have m11 := small 1 1 (by omega) (by omega)
  have m10 : Small ⟨X * 2 + 1, Y * 2, Z + 1⟩ := by simpa using small 1 0 (by omega) (by omega)
  have m01 : Small ⟨X * 2, Y * 2 + 1, Z + 1⟩ := by simpa using small 0 1 (by omega) (by omega)
  have s1e : X * 2 + 1 + 1 = (X + 1) * 2 := by ring
  have s2e : Y * 2 + 1 + 1 = (Y + 1) * 2 := by ring
  have t2x : X * 2 + 2 = (X + 1) * 2 := by ring
  have t2y : Y * 2 + 2 = (Y + 1) * 2 := by ring
  have m22 : Small ⟨(X + 1) * 2, (Y + 1) * 2, Z + 1⟩ := by
    have := small 2 2 (by omega) (by omega); rwa [t2x, t2y] at this
  have m21 : Small ⟨(X + 1) * 2, Y * 2 + 1, Z + 1⟩ := by
    have := small 2 1 (by omega) (by omega); rwa [t2x] at this
  have m12 : Small ⟨X * 2 + 1, (Y + 1) * 2, Z + 1⟩ := by
    have := small 1 2 (by omega) (by omega); rwa [t2y] at this
  have g00 : (⟨X * 2, Y * 2, Z + 1⟩ : TileID).InGrid := by simpa using grid 0 0 (by omega) (by omega)
  have g10 : (⟨X * 2 + 1, Y * 2, Z + 1⟩ : TileID).InGrid := by simpa using grid 1 0 (by omega) (by omega)
  have g11 := grid 1 1 (by omega) (by omega)
  have g01 : (⟨X * 2, Y * 2 + 1, Z + 1⟩ : TileID).InGrid := by simpa using grid 0 1 (by omega) (by omega)
  have e00 := dbl X Y s1 m00
  have e11 := dbl (X + 1) (Y + 1) s2 m22
  refine ⟨_, _, _, _, (ul M ⟨X * 2 + 1, Y * 2 + 1, Z + 1⟩).1, (ul M ⟨X * 2 + 1, Y * 2 + 1, Z + 1⟩).2,
    children_eq _ (by unfold NoOverflow; simp only; omega), ?_, ?_, ?_, ?_⟩
  all_goals
    simp only
    rw [bounds_eq M (by assumption) (by simp only; omega), bounds_eq M hg (by simp only; omega)]
    simp only [se, s1e, s2e]
    rw [Extrema.mk.injEq]
  · exact ⟨by rw [e00], rfl, by rw [e00], rfl⟩
  · exact ⟨ulx _ _ _ m10 m11, by rw [ulx _ _ _ m21 m22, e11], by rw [uly _ _ _ m10 m00, e00], uly _ _ _ m21 m11⟩
  · exact ⟨rfl, by rw [e11], rfl, by rw [e11]⟩
  · exact ⟨by rw [ulx _ _ _ m01 m00, e00], ulx _ _ _ m12 m11, uly _ _ _ m01 m11, by rw [uly _ _ _ m12 m22, e11]⟩

/-- **C75** Neighbours in a row or column share an edge, bit for bit. -/
theorem C75_neighbours (M : MathLib) (X Y : ℤ) (Z : ℕ) (hx : 0 ≤ X ∧ X + 1 < 2 ^ Z) (hy : 0 ≤ Y ∧ Y + 1 < 2 ^ Z)
    (hz : Z ≤ 50) :
    (bounds M ⟨X, Y, Z⟩).E = (bounds M ⟨X + 1, Y, Z⟩).W ∧ (bounds M ⟨X, Y, Z⟩).S = (bounds M ⟨X, Y + 1, Z⟩).N := by
  have gr : ∀ i j : ℤ, (i = 0 ∨ i = 1) → (j = 0 ∨ j = 1) → (⟨X + i, Y + j, Z⟩ : TileID).InGrid := by
    intro i j hi hj; unfold TileID.InGrid; simp only; omega
  have g0 : (⟨X, Y, Z⟩ : TileID).InGrid := by simpa using gr 0 0 (by omega) (by omega)
  have g1 : (⟨X + 1, Y, Z⟩ : TileID).InGrid := by simpa using gr 1 0 (by omega) (by omega)
  have g2 : (⟨X, Y + 1, Z⟩ : TileID).InGrid := by simpa using gr 0 1 (by omega) (by omega)
  rw [bounds_eq M g0 hz, bounds_eq M g1 hz, bounds_eq M g2 hz]
  have a0 := (small_of_grid g0 hz).2
  simp only [se] at a0 ⊢
  rw [ul_eq M a0, ul_eq M (small_of_grid g1 hz).1, ul_eq M (small_of_grid g2 hz).1]
  exact ⟨rfl, rfl⟩

/-- **C75** In float64, up to zoom 35, every tile's box has positive width and height. -/
theorem C75_positive_size {M : MathLib} (hM : Accurate M) (t : TileID) (hg : t.InGrid) (hz : t.Z ≤ 35) :
    (bounds M t).W < (bounds M t).E ∧ (bounds M t).S < (bounds M t).N := by
  obtain ⟨b1, b2, b3, b4⟩ := C75_bounds hM t hg (by omega)
  obtain ⟨s1, s2⟩ := small_of_grid hg (by omega : t.Z ≤ 50)
  obtain ⟨a1, l1⟩ := lat_abs s1
  obtain ⟨a2, l2⟩ := lat_abs s2
  have hn : (0 : ℝ) < 2 ^ t.Z := by positivity
  have hp := pow_le36 hz
  have hpi := Real.pi_pos
  have hpi2 := Real.pi_lt_d6
  have p := C04_positive_size t
  have hinv : 1 / (2 : ℝ) ^ 35 ≤ 1 / 2 ^ t.Z := one_div_le_one_div_of_le hn hp
  have w : 360 / (2 : ℝ) ^ t.Z = (Tid.bounds t).E - (Tid.bounds t).W := by
    unfold Tid.bounds Tid.ul
    simp only
    push_cast
    field_simp
    ring
  have h : 360 / (13 * (2 : ℝ) ^ t.Z) ≤ (Tid.bounds t).N - (Tid.bounds t).S := by
    have e1 : (Tid.bounds t).N = (Tid.ul t).2 := rfl
    have e2 : (Tid.bounds t).S = (Tid.ul (se t)).2 := rfl
    rw [e1, e2] at p ⊢
    have k0 : 0 < Real.pi / 180 := by positivity
    have k1 : Real.pi / 180 ≤ 3.141593 / 180 := by gcongr
    have dom : ∀ x : ℝ, |x| ≤ 85.4 → |x * (Real.pi / 180)| ≤ 1.4923 := by
      intro x hx
      rw [abs_mul, abs_of_pos k0]
      calc |x| * (Real.pi / 180) ≤ 85.4 * (3.141593 / 180) := by gcongr
        _ ≤ 1.4923 := by norm_num
    have lip := L_lip (dom _ a1) (dom _ a2)
    have hY : (((se t).Y : ℤ) : ℝ) = t.Y + 1 := by unfold se; push_cast; rfl
    have hZ : (se t).Z = t.Z := rfl
    have e3 : Real.pi * (1 - 2 * (t.Y : ℝ) / 2 ^ t.Z) - Real.pi * (1 - 2 * ((t.Y : ℝ) + 1) / 2 ^ t.Z) = 2 * Real.pi / 2 ^ t.Z := by
      field_simp
      ring
    rw [l1, l2, hY, hZ, e3, abs_of_pos (by positivity), ← sub_mul, abs_of_pos (mul_pos (by linarith [p.2]) k0),
      div_le_iff₀ hn] at lip
    rw [div_le_iff₀ (by positivity)]
    have : Real.pi * 360 ≤ Real.pi * (((Tid.ul t).2 - (Tid.ul (se t)).2) * (13 * 2 ^ t.Z)) := by linarith
    exact le_of_mul_le_mul_left this hpi
  have e4 : 360 / (13 * (2 : ℝ) ^ t.Z) = 360 / 13 * (1 / 2 ^ t.Z) := by field_simp
  have e5 : 360 / (2 : ℝ) ^ t.Z = 360 * (1 / 2 ^ t.Z) := by ring
  rw [e4] at h
  rw [e5] at w
  norm_num at hinv b1 b2 b3 b4 h w
  obtain ⟨b11, b12⟩ := abs_le.mp b1
  obtain ⟨b21, b22⟩ := abs_le.mp b2
  obtain ⟨b31, b32⟩ := abs_le.mp b3
  obtain ⟨b41, b42⟩ := abs_le.mp b4
  constructor
  · have : ((bounds M t).W : ℝ) < (bounds M t).E := by linarith
    exact_mod_cast this
  · have : ((bounds M t).S : ℝ) < (bounds M t).N := by linarith
    exact_mod_cast this

/-- Package `math` could be like that: every value rounded within the error allowed. -/
theorem C75_accurate_exists : ∃ M : MathLib, Accurate M := by
  have pick : ∀ x : ℝ, ∃ q : ℚ, |(q : ℝ) - x| ≤ |x| * eps := by
    intro x
    rcases eq_or_ne x 0 with rfl | hx
    · exact ⟨0, by simp⟩
    · have hp : 0 < |x| * eps := mul_pos (abs_pos.mpr hx) eps_pos
      obtain ⟨q, h1, h2⟩ := exists_rat_btwn (show x - |x| * eps < x + |x| * eps by linarith)
      exact ⟨q, abs_le.mpr ⟨by linarith, by linarith⟩⟩
  choose f hf using pick
  exact ⟨⟨fun q => f (Real.arctan q), fun q => f (Real.sinh q), fun q => f (Real.log q), fun q => f (Real.tan q),
    fun q => f (Real.cos q)⟩, ⟨fun q => hf _, fun q _ => hf _, fun q _ => hf _, fun q _ => hf _, fun q _ => hf _⟩⟩

/-- non-vacuity: tile 12/2148/1424 and its first child -/
example : (⟨2148, 1424, 12⟩ : TileID).InGrid ∧ (⟨4296, 2848, 13⟩ : TileID) ∈ children ⟨2148, 1424, 12⟩ := by decide

end Verif.Tid.Float
