import Verif.Proof.MvtFloat

/-! # C76: lon/lat ↔ grid coordinates in float64 arithmetic -/
namespace Verif.MvtProj.Float
open Verif.Go Verif.F64 Verif.Tid Verif.Tid.Float

theorem goRound_near (v : ℚ) : |((goRound v : ℤ) : ℝ) - v| ≤ 1 / 2 := by
  have : |((goRound v : ℤ) : ℚ) - v| ≤ 1 / 2 := by
    unfold goRound
    split
    · have h1 := Int.floor_le (v + 1 / 2)
      have h2 := Int.lt_floor_add_one (v + 1 / 2)
      rw [abs_le]; constructor <;> linarith
    · have h1 := Int.floor_le (-v + 1 / 2)
      have h2 := Int.lt_floor_add_one (-v + 1 / 2)
      push_cast
      rw [abs_le]; constructor <;> linarith
  have h : ((|((goRound v : ℤ) : ℚ) - v| : ℚ) : ℝ) ≤ ((1 / 2 : ℚ) : ℝ) := by exact_mod_cast this
  push_cast at h
  exact h

/-- an integer near to the rounded value is the rounded value -/
theorem goRound_eq {v : ℚ} {k : ℤ} (h : |(v : ℝ) - k| < 1 / 2) : goRound v = k := by
  have hn := goRound_near v
  have : |((goRound v : ℤ) : ℝ) - k| < 1 := by
    have e : ((goRound v : ℤ) : ℝ) - k = (((goRound v : ℤ) : ℝ) - v) + ((v : ℝ) - k) := by ring
    rw [e]
    exact (abs_add_le _ _).trans_lt (by linarith)
  have h2 : |goRound v - k| < 1 := by exact_mod_cast this
  rw [Int.abs_lt_one_iff] at h2
  omega

theorem toI32_fit (junk : ℚ → Int) {v : ℚ} (h : |(v : ℝ)| ≤ 2147483000) : toI32 junk v = goRound v := by
  have h1 := abs_le.mp (goRound_near v)
  have h2 := abs_le.mp h
  unfold toI32
  rw [if_pos]
  constructor
  · by_contra hc
    have : goRound v ≤ -2147483649 := by omega
    have : (goRound v : ℝ) ≤ -2147483649 := by exact_mod_cast this
    linarith [h1.1, h1.2, h2.1, h2.2]
  · by_contra hc
    have : 2147483648 ≤ goRound v := by omega
    have : (2147483648 : ℝ) ≤ (goRound v : ℝ) := by exact_mod_cast this
    linarith [h1.1, h1.2, h2.1, h2.2]

/-- `SinglePoint` without clamping rounds the two values -/
theorem single_pre (M : MathLib) (junk : ℚ → Int) (t : TileID) (e : ℤ) (p : ℚ × ℚ) :
    singlePoint M junk (newCursorExtent M t e) p =
      (toI32 junk (preRound M (newCursorExtent M t e) p).1, toI32 junk (preRound M (newCursorExtent M t e) p).2) := rfl

theorem near_fit {v : ℚ} {g : ℝ} {e : ℤ} (he : e ≤ 1000000000) (h : |(v : ℝ) - g| ≤ 0.0075) (hg : |g| ≤ 2 * e) :
    |(v : ℝ)| ≤ 2147483000 := by
  have e0 : (e : ℝ) ≤ 1000000000 := by exact_mod_cast he
  have : (v : ℝ) = ((v : ℝ) - g) + g := by ring
  rw [this]
  exact (abs_add_le _ _).trans (by linarith)

/-- **C76** In float64 arithmetic a position is written as a grid point at most 0.51 grid units from its place in the tile's
grid, in each direction (0.5 is what rounding to the grid costs). For extent 4096 this is every zoom up to 22. -/
theorem C76_near {M : MathExp} (hM : AccurateExp M) (junk : ℚ → Int) (t : TileID) (hg : t.InGrid) (e : ℤ) (he0 : 0 < e)
    (he2 : e ≤ 1000000000) (hne : (2 : ℤ) ^ t.Z * e ≤ 2 ^ 34) (p : ℚ × ℚ) (h1 : |(p.1 : ℝ)| ≤ 600) (h2 : |(p.2 : ℝ)| ≤ 85.5)
    (hx : |(gridPos t e p).1| ≤ 2 * e) (hy : |(gridPos t e p).2| ≤ 2 * e) :
    let q := singlePoint M.toMathLib junk (newCursorExtent M.toMathLib t e) p
    |(q.1 : ℝ) - (gridPos t e p).1| ≤ 0.51 ∧ |(q.2 : ℝ) - (gridPos t e p).2| ≤ 0.51 := by
  obtain ⟨a, b⟩ := pre_near hM t hg e he0 hne (by omega) p h1 h2 hx hy
  intro q
  have hq : q = _ := single_pre M.toMathLib junk t e p
  rw [hq]
  simp only
  rw [toI32_fit junk (near_fit he2 a hx), toI32_fit junk (near_fit he2 b hy)]
  generalize (preRound M.toMathLib (newCursorExtent M.toMathLib t e) p).1 = v at *
  generalize (preRound M.toMathLib (newCursorExtent M.toMathLib t e) p).2 = w at *
  have tri : ∀ (v : ℚ) (g : ℝ), |(v : ℝ) - g| ≤ 0.0075 → |((goRound v : ℤ) : ℝ) - g| ≤ 0.51 := by
    intro v g h
    have hn := goRound_near v
    have e : ((goRound v : ℤ) : ℝ) - g = (((goRound v : ℤ) : ℝ) - v) + ((v : ℝ) - g) := by ring
    rw [e]
    exact (abs_add_le _ _).trans (by linarith)
  exact ⟨tri _ _ a, tri _ _ b⟩

theorem clampCoord_eq {e : ℤ} (he : 0 ≤ e) (v : ℤ) : clampCoord e v = max 0 (min e v) := by
  unfold clampCoord
  simp only
  split <;> split <;> omega

theorem between_near {a b x y d : ℝ} (h : |x - y| ≤ d) : |between a b x - between a b y| ≤ d := by
  unfold between
  rw [max_comm a, max_comm a]
  refine (abs_max_sub_max_le_abs _ _ _).trans ?_
  rw [min_comm b, min_comm b]
  have := abs_min_sub_min_le_max x b y b
  rw [sub_self, abs_zero] at this
  refine this.trans (max_le h ((abs_nonneg _).trans h))

/-- **C76** With clamping the grid point is in the tile's grid, and at most 0.51 units from the point of the grid nearest to
the position. -/
theorem C76_clamped {M : MathExp} (hM : AccurateExp M) (junk : ℚ → Int) (t : TileID) (hg : t.InGrid) (e : ℤ) (he0 : 0 < e)
    (he2 : e ≤ 1000000000) (hne : (2 : ℤ) ^ t.Z * e ≤ 2 ^ 34) (p : ℚ × ℚ) (h1 : |(p.1 : ℝ)| ≤ 600) (h2 : |(p.2 : ℝ)| ≤ 85.5)
    (hx : |(gridPos t e p).1| ≤ 2 * e) (hy : |(gridPos t e p).2| ≤ 2 * e) :
    let q := singlePoint M.toMathLib junk { newCursorExtent M.toMathLib t e with ExtentBool := true } p
    (0 ≤ q.1 ∧ q.1 ≤ e ∧ 0 ≤ q.2 ∧ q.2 ≤ e) ∧
    |(q.1 : ℝ) - between 0 e (gridPos t e p).1| ≤ 0.51 ∧ |(q.2 : ℝ) - between 0 e (gridPos t e p).2| ≤ 0.51 := by
  obtain ⟨a, b⟩ := C76_near hM junk t hg e he0 he2 hne p h1 h2 hx hy
  intro q
  have hq : q = (clampCoord e (singlePoint M.toMathLib junk (newCursorExtent M.toMathLib t e) p).1,
      clampCoord e (singlePoint M.toMathLib junk (newCursorExtent M.toMathLib t e) p).2) := rfl
  rw [hq]
  simp only
  rw [clampCoord_eq he0.le, clampCoord_eq he0.le]
  refine ⟨by omega, ?_, ?_⟩
  · have := between_near (a := 0) (b := e) a
    unfold between at this ⊢
    push_cast
    exact this
  · have := between_near (a := 0) (b := e) b
    unfold between at this ⊢
    push_cast
    exact this

/-- **C76** A position in the tile gets grid coordinates from 0 to the extent without clamping. -/
theorem C76_inside {M : MathExp} (hM : AccurateExp M) (junk : ℚ → Int) (t : TileID) (hg : t.InGrid) (e : ℤ) (he0 : 0 < e)
    (he2 : e ≤ 1000000000) (hne : (2 : ℤ) ^ t.Z * e ≤ 2 ^ 34) (p : ℚ × ℚ) (h1 : |(p.1 : ℝ)| ≤ 600) (h2 : |(p.2 : ℝ)| ≤ 85.5)
    (hx : (t.X : ℝ) / 2 ^ t.Z ≤ worldX p.1 ∧ worldX p.1 ≤ (t.X + 1) / 2 ^ t.Z)
    (hy : (t.Y : ℝ) / 2 ^ t.Z ≤ worldY p.2 ∧ worldY p.2 ≤ (t.Y + 1) / 2 ^ t.Z) :
    let q := singlePoint M.toMathLib junk (newCursorExtent M.toMathLib t e) p
    0 ≤ q.1 ∧ q.1 ≤ e ∧ 0 ≤ q.2 ∧ q.2 ≤ e := by
  have hn : (0 : ℝ) < 2 ^ t.Z := by positivity
  have hE : (0 : ℝ) < e := by exact_mod_cast he0
  obtain ⟨x0, x1, y0, y1⟩ := hg
  have Y0 : (0 : ℝ) ≤ (t.Y : ℝ) / 2 ^ t.Z := div_nonneg (by exact_mod_cast y0) hn.le
  have Y1 : ((t.Y : ℝ) + 1) / 2 ^ t.Z ≤ 1 := by
    rw [div_le_one hn]
    have : t.Y + 1 ≤ 2 ^ t.Z := by omega
    exact_mod_cast this
  have hb : between 0 1 (worldY p.2) = worldY p.2 := by
    unfold between
    rw [min_eq_right (by linarith), max_eq_right (by linarith)]
  have key : ∀ (k : ℤ) (w : ℝ), (k : ℝ) / 2 ^ t.Z ≤ w → w ≤ (k + 1) / 2 ^ t.Z → 0 ≤ (w * 2 ^ t.Z - k) * e ∧ (w * 2 ^ t.Z - k) * e ≤ e := by
    intro k w a b
    rw [div_le_iff₀ hn] at a
    rw [le_div_iff₀ hn] at b
    constructor
    · exact mul_nonneg (by linarith) hE.le
    · calc (w * 2 ^ t.Z - k) * e ≤ 1 * e := by gcongr; linarith
        _ = e := one_mul _
  obtain ⟨kx0, kx1⟩ := key t.X _ hx.1 hx.2
  obtain ⟨ky0, ky1⟩ := key t.Y _ hy.1 hy.2
  have gx : (gridPos t e p).1 = (worldX p.1 * 2 ^ t.Z - t.X) * e := rfl
  have gy : (gridPos t e p).2 = (worldY p.2 * 2 ^ t.Z - t.Y) * e := by unfold gridPos; rw [hb]
  have bx : |(gridPos t e p).1| ≤ 2 * e := by rw [gx, abs_of_nonneg kx0]; linarith
  have by' : |(gridPos t e p).2| ≤ 2 * e := by rw [gy, abs_of_nonneg ky0]; linarith
  obtain ⟨a, b⟩ := C76_near hM junk t ⟨x0, x1, y0, y1⟩ e he0 he2 hne p h1 h2 bx by'
  intro q
  rw [gx] at a
  rw [gy] at b
  obtain ⟨a1, a2⟩ := abs_le.mp a
  obtain ⟨b1, b2⟩ := abs_le.mp b
  have lo : ∀ z : ℤ, -0.51 ≤ (z : ℝ) → 0 ≤ z := by
    intro z hz
    by_contra hc
    have : z ≤ -1 := by omega
    have : (z : ℝ) ≤ -1 := by exact_mod_cast this
    linarith
  have hi : ∀ z : ℤ, (z : ℝ) ≤ e + 0.51 → z ≤ e := by
    intro z hz
    by_contra hc
    have : e + 1 ≤ z := by omega
    have : (e : ℝ) + 1 ≤ z := by exact_mod_cast this
    linarith
  exact ⟨lo _ (by linarith), hi _ (by linarith), lo _ (by linarith), hi _ (by linarith)⟩

/-- the place of a grid point read back -/
theorem read_pos {M : MathExp} (hM : AccurateExp M) (t : TileID) (hg : t.InGrid) (e : ℤ) (he0 : 0 < e)
    (hne : (2 : ℤ) ^ t.Z * e ≤ 2 ^ 34) (x y : ℤ) (hx : -e ≤ x ∧ x ≤ 2 * e)
    (hy : 0 ≤ y + e * t.Y ∧ y + e * t.Y ≤ e * 2 ^ t.Z) :
    |((toLonLat M t e (x, y)).1 : ℝ)| ≤ 600 ∧ |((toLonLat M t e (x, y)).2 : ℝ)| ≤ 85.5 ∧
    |(gridPos t e (toLonLat M t e (x, y))).1 - x| ≤ 0.001 ∧ |(gridPos t e (toLonLat M t e (x, y))).2 - y| ≤ 0.001 := by
  have hp := eps_pos
  have hp1 := eps_small
  have hpi := Real.pi_pos
  have hpi2 := Real.pi_lt_d6
  obtain ⟨nx, bx, ny⟩ := toLonLat_near hM t hg e he0 hne x y hx hy
  obtain ⟨hz, hn1, hne'⟩ := pow_Z_le he0 hne
  have hn : (0 : ℝ) < 2 ^ t.Z := by positivity
  have hE : (0 : ℝ) < e := by exact_mod_cast he0
  have hneeps : 2 ^ t.Z * (e : ℝ) * eps ≤ 1 / 65536 := by
    calc 2 ^ t.Z * (e : ℝ) * eps ≤ 2 ^ 34 * eps := by gcongr
      _ = 1 / 65536 := by unfold eps; norm_num
  obtain ⟨hpos, l1, l2, hrow⟩ := project_pos t e he0 ((x : ℝ), (y : ℝ))
  have m1 : (0 : ℝ) ≤ (y : ℝ) + e * t.Y := by exact_mod_cast hy.1
  have m2 : (y : ℝ) + e * t.Y ≤ e * 2 ^ t.Z := by exact_mod_cast hy.2
  have w0 : 0 ≤ rowf (MvtProj.toLonLat t e ((x : ℝ), (y : ℝ))).2 := by rw [hrow]; simp only; positivity
  have w1 : rowf (MvtProj.toLonLat t e ((x : ℝ), (y : ℝ))).2 ≤ 1 := by
    rw [hrow]; simp only; exact (div_le_one (by positivity)).2 m2
  -- the exact latitude is on the map
  have hlat : |(MvtProj.toLonLat t e ((x : ℝ), (y : ℝ))).2| ≤ 85.4 := by
    generalize (MvtProj.toLonLat t e ((x : ℝ), (y : ℝ))).2 = lat at *
    have r := rowf_L l1 l2
    have hg := gd_L (φ := lat * (Real.pi / 180)) (by nlinarith) (by nlinarith)
    have hv : L (lat * (Real.pi / 180)) = Real.pi * (1 - 2 * rowf lat) := by
      rw [r]; field_simp; ring
    rw [hv] at hg
    have := gd_le (v := Real.pi * (1 - 2 * rowf lat)) (by
      rw [abs_le]; constructor <;> nlinarith)
    rw [hg, abs_mul, abs_of_pos (show 0 < Real.pi / 180 by positivity)] at this
    have : |lat| * (Real.pi / 180) ≤ 85.4 * (Real.pi / 180) := by linarith
    exact le_of_mul_le_mul_right this (by positivity)
  have hposx := congrArg Prod.fst hpos
  have hposy := congrArg Prod.snd hpos
  unfold tilePos at hposx hposy
  simp only at hposx hposy
  generalize (MvtProj.toLonLat t e ((x : ℝ), (y : ℝ))).2 = lat at *
  generalize (MvtProj.toLonLat t e ((x : ℝ), (y : ℝ))).1 = lng at *
  unfold gridPos
  simp only
  generalize ((toLonLat M t e ((x : ℚ), (y : ℚ))).1 : ℝ) = lngq at *
  generalize ((toLonLat M t e ((x : ℚ), (y : ℚ))).2 : ℝ) = latq at *
  obtain ⟨nx1, nx2⟩ := abs_le.mp nx
  obtain ⟨ny1, ny2⟩ := abs_le.mp ny
  obtain ⟨bx1, bx2⟩ := abs_le.mp bx
  obtain ⟨hl1, hl2⟩ := abs_le.mp hlat
  have hlatq : |latq| ≤ 85.5 := by rw [abs_le]; constructor <;> linarith
  refine ⟨by rw [abs_le]; constructor <;> linarith, hlatq, ?_, ?_⟩
  · have e1 : (worldX lngq * 2 ^ t.Z - t.X) * e - x = (lngq - lng) / 360 * (2 ^ t.Z * e) := by
      have : (x : ℝ) = ((lng + 180) / 360 * 2 ^ t.Z - t.X) * e := by rw [hposx]; field_simp
      rw [this]
      unfold worldX
      ring
    rw [e1, abs_mul, abs_of_pos (show (0 : ℝ) < 2 ^ t.Z * e by positivity), abs_div, abs_of_pos (show (0 : ℝ) < 360 by norm_num)]
    have : |lngq - lng| / 360 * (2 ^ t.Z * e) ≤ 160 * eps / 360 * (2 ^ t.Z * e) := by gcongr
    have e2 : 160 * eps / 360 * (2 ^ t.Z * (e : ℝ)) = 160 / 360 * (2 ^ t.Z * e * eps) := by ring
    linarith
  · have k0 : 0 < Real.pi / 180 := by positivity
    have k1 : Real.pi / 180 ≤ 3.141593 / 180 := by gcongr
    have dom : ∀ x : ℝ, |x| ≤ 85.5 → |x * (Real.pi / 180)| ≤ 1.4923 := by
      intro x hx
      rw [abs_mul, abs_of_pos k0]
      calc |x| * (Real.pi / 180) ≤ 85.5 * (3.141593 / 180) := by gcongr
        _ ≤ 1.4923 := by norm_num
    have lip := L_lip (dom latq hlatq) (dom lat (hlat.trans (by norm_num)))
    rw [← sub_mul, abs_mul, abs_of_pos k0] at lip
    have hw : |worldY latq - rowf lat| ≤ 20 * eps := by
      rw [world_L hlatq, rowf_L l1 l2]
      generalize L (latq * (Real.pi / 180)) = A at *
      generalize L (lat * (Real.pi / 180)) = B at *
      have e1 : (1 - A / Real.pi) / 2 - (1 - B / Real.pi) / 2 = -((A - B) / (2 * Real.pi)) := by field_simp; ring
      rw [e1, abs_neg, abs_div, abs_of_pos (by positivity : 0 < 2 * Real.pi), div_le_iff₀ (by positivity)]
      have : |latq - lat| * (Real.pi / 180) ≤ 500 * eps * (Real.pi / 180) := by gcongr
      have h3 : 0 < eps * Real.pi := by positivity
      linarith
    have hb : between 0 1 (rowf lat) = rowf lat := by
      unfold between
      rw [min_eq_right w1, max_eq_right w0]
    have hw2 := between_near (a := 0) (b := 1) hw
    rw [hb] at hw2
    have e1 : (between 0 1 (worldY latq) * 2 ^ t.Z - t.Y) * e - y = (between 0 1 (worldY latq) - rowf lat) * (2 ^ t.Z * e) := by
      have : (y : ℝ) = (rowf lat * 2 ^ t.Z - t.Y) * e := by rw [hposy]; field_simp
      rw [this]
      ring
    rw [e1, abs_mul, abs_of_pos (show (0 : ℝ) < 2 ^ t.Z * e by positivity)]
    have : |between 0 1 (worldY latq) - rowf lat| * (2 ^ t.Z * e) ≤ 20 * eps * (2 ^ t.Z * e) := by gcongr
    have e2 : 20 * eps * (2 ^ t.Z * (e : ℝ)) = 20 * (2 ^ t.Z * e * eps) := by ring
    linarith

/-- **C76** In float64 the lon/lat read for a grid point is within 5·10^-13 degrees of the exact one (and within 0.001 grid
units of the point it was read from), for every point of the map up to one tile west and east of the tile. -/
theorem C76_read {M : MathExp} (hM : AccurateExp M) (t : TileID) (hg : t.InGrid) (e : ℤ) (he0 : 0 < e)
    (hne : (2 : ℤ) ^ t.Z * e ≤ 2 ^ 34) (x y : ℤ) (hx : -e ≤ x ∧ x ≤ 2 * e)
    (hy : 0 ≤ y + e * t.Y ∧ y + e * t.Y ≤ e * 2 ^ t.Z) :
    |((toLonLat M t e (x, y)).1 : ℝ) - (MvtProj.toLonLat t e (x, y)).1| ≤ 5 / 10 ^ 13 ∧
    |((toLonLat M t e (x, y)).2 : ℝ) - (MvtProj.toLonLat t e (x, y)).2| ≤ 5 / 10 ^ 13 ∧
    |(gridPos t e (toLonLat M t e (x, y))).1 - x| ≤ 0.001 ∧ |(gridPos t e (toLonLat M t e (x, y))).2 - y| ≤ 0.001 := by
  obtain ⟨a, _, b⟩ := toLonLat_near hM t hg e he0 hne x y hx hy
  obtain ⟨_, _, c, d⟩ := read_pos hM t hg e he0 hne x y hx hy
  have e1 : 160 * eps ≤ 5 / 10 ^ 13 := by unfold eps; norm_num
  have e2 : 500 * eps ≤ 5 / 10 ^ 13 := by unfold eps; norm_num
  exact ⟨a.trans e1, b.trans e2, c, d⟩

/-- **C76** In float64 a grid point projected to lon/lat and converted back is itself. -/
theorem C76_roundtrip {M : MathExp} (hM : AccurateExp M) (junk : ℚ → Int) (t : TileID) (hg : t.InGrid) (e : ℤ) (he0 : 0 < e)
    (he2 : e ≤ 1000000000) (hne : (2 : ℤ) ^ t.Z * e ≤ 2 ^ 34) (x y : ℤ) (hx : -e ≤ x ∧ x < 2 * e)
    (hy : -e ≤ y ∧ y < 2 * e) (hmap : 0 ≤ y + e * t.Y ∧ y + e * t.Y ≤ e * 2 ^ t.Z) :
    singlePoint M.toMathLib junk (newCursorExtent M.toMathLib t e) (toLonLat M t e (x, y)) = (x, y) := by
  obtain ⟨b1, b2, c, d⟩ := read_pos hM t hg e he0 hne x y ⟨hx.1, hx.2.le⟩ hmap
  have hE : (1 : ℝ) ≤ e := by exact_mod_cast (show (1 : ℤ) ≤ e by omega)
  have fit : ∀ (g : ℝ) (k : ℤ), |g - k| ≤ 0.001 → -e ≤ k ∧ k < 2 * e → |g| ≤ 2 * e := by
    intro g k h hk
    have k1 : -(e : ℝ) ≤ k := by exact_mod_cast hk.1
    have k2 : (k : ℝ) + 1 ≤ 2 * e := by exact_mod_cast (show k + 1 ≤ 2 * e by omega)
    obtain ⟨a, b⟩ := abs_le.mp h
    rw [abs_le]; constructor <;> linarith
  have gx := fit _ x c ⟨hx.1, hx.2⟩
  have gy := fit _ y d ⟨hy.1, hy.2⟩
  obtain ⟨n1, n2⟩ := pre_near hM t hg e he0 hne (by omega) _ b1 b2 gx gy
  rw [single_pre, toI32_fit junk (near_fit he2 n1 gx), toI32_fit junk (near_fit he2 n2 gy)]
  have tri : ∀ (v : ℚ) (g : ℝ) (k : ℤ), |(v : ℝ) - g| ≤ 0.0075 → |g - k| ≤ 0.001 → goRound v = k := by
    intro v g k h1 h2
    apply goRound_eq
    have e : (v : ℝ) - k = ((v : ℝ) - g) + (g - k) := by ring
    rw [e]
    exact (abs_add_le _ _).trans_lt (by linarith)
  rw [tri _ _ x n1 c, tri _ _ y n2 d]

/-- **C76** In float64 a position written to a tile's grid and read back moves by at most 0.52 grid units in each direction. -/
theorem C76_back {M : MathExp} (hM : AccurateExp M) (junk : ℚ → Int) (t : TileID) (hg : t.InGrid) (e : ℤ) (he0 : 0 < e)
    (he2 : e ≤ 1000000000) (hne : (2 : ℤ) ^ t.Z * e ≤ 2 ^ 34) (p : ℚ × ℚ) (h1 : |(p.1 : ℝ)| ≤ 600) (h2 : |(p.2 : ℝ)| ≤ 85.5)
    (hx : -(e : ℝ) ≤ (gridPos t e p).1 ∧ (gridPos t e p).1 ≤ 2 * e) (hy : |(gridPos t e p).2| ≤ 2 * e) :
    let q := singlePoint M.toMathLib junk (newCursorExtent M.toMathLib t e) p
    |(gridPos t e (toLonLat M t e (q.1, q.2))).1 - (gridPos t e p).1| ≤ 0.52 ∧
    |(gridPos t e (toLonLat M t e (q.1, q.2))).2 - (gridPos t e p).2| ≤ 0.52 := by
  have hE : (0 : ℝ) < e := by exact_mod_cast he0
  have hn : (0 : ℝ) < 2 ^ t.Z := by positivity
  obtain ⟨a, b⟩ := C76_near hM junk t hg e he0 he2 hne p h1 h2 (by rw [abs_le]; constructor <;> linarith [hx.1, hx.2]) hy
  intro q
  change |(q.1 : ℝ) - (gridPos t e p).1| ≤ 0.51 at a
  change |(q.2 : ℝ) - (gridPos t e p).2| ≤ 0.51 at b
  obtain ⟨a1, a2⟩ := abs_le.mp a
  obtain ⟨b1, b2⟩ := abs_le.mp b
  -- the grid point is on the map and within the range of x
  have w : 0 ≤ between 0 1 (worldY p.2) ∧ between 0 1 (worldY p.2) ≤ 1 := by
    unfold between
    exact ⟨le_max_left _ _, max_le (by norm_num) (min_le_left _ _)⟩
  have gy : (gridPos t e p).2 = (between 0 1 (worldY p.2) * 2 ^ t.Z - t.Y) * e := rfl
  have qy : 0 ≤ q.2 + e * t.Y ∧ q.2 + e * t.Y ≤ e * 2 ^ t.Z := by
    rw [gy] at b1 b2
    generalize between 0 1 (worldY p.2) = wy at *
    have w0 : 0 ≤ wy * (2 ^ t.Z * e) := mul_nonneg w.1 (by positivity)
    have w1 : wy * (2 ^ t.Z * e) ≤ 1 * (2 ^ t.Z * e) := mul_le_mul_of_nonneg_right w.2 (by positivity)
    constructor
    · by_contra hc
      have : q.2 + e * t.Y ≤ -1 := by omega
      have : (q.2 : ℝ) + e * t.Y ≤ -1 := by exact_mod_cast this
      nlinarith
    · by_contra hc
      have : e * 2 ^ t.Z + 1 ≤ q.2 + e * t.Y := by omega
      have : (e : ℝ) * 2 ^ t.Z + 1 ≤ (q.2 : ℝ) + e * t.Y := by exact_mod_cast this
      nlinarith
  have qx : -e ≤ q.1 ∧ q.1 ≤ 2 * e := by
    constructor
    · by_contra hc
      have : q.1 ≤ -e - 1 := by omega
      have : (q.1 : ℝ) ≤ -e - 1 := by exact_mod_cast this
      linarith [hx.1]
    · by_contra hc
      have : 2 * e + 1 ≤ q.1 := by omega
      have : 2 * (e : ℝ) + 1 ≤ q.1 := by exact_mod_cast this
      linarith [hx.2]
  obtain ⟨_, _, c, d⟩ := read_pos hM t hg e he0 hne q.1 q.2 qx qy
  obtain ⟨c1, c2⟩ := abs_le.mp c
  obtain ⟨d1, d2⟩ := abs_le.mp d
  exact ⟨by rw [abs_le]; constructor <;> linarith, by rw [abs_le]; constructor <;> linarith⟩

/-- Package `math` could be like that. -/
theorem C76_accurate_exists : ∃ M : MathExp, AccurateExp M := by
  have pick : ∀ x : ℝ, ∃ q : ℚ, |(q : ℝ) - x| ≤ |x| * eps := by
    intro x
    rcases eq_or_ne x 0 with rfl | hx
    · exact ⟨0, by simp⟩
    · have hp : 0 < |x| * eps := mul_pos (abs_pos.mpr hx) eps_pos
      obtain ⟨q, h1, h2⟩ := exists_rat_btwn (show x - |x| * eps < x + |x| * eps by linarith)
      exact ⟨q, abs_le.mpr ⟨by linarith, by linarith⟩⟩
  choose f hf using pick
  refine ⟨⟨⟨fun q => f (Real.arctan q), fun q => f (Real.sinh q), fun q => f (Real.log q), fun q => f (Real.tan q),
    fun q => f (Real.cos q)⟩, fun q => f (Real.exp q)⟩,
    ⟨⟨fun q => hf _, fun q _ => hf _, fun q _ => hf _, fun q _ => hf _, fun q _ => hf _⟩, fun q _ => hf _, fun q _ => ?_⟩⟩
  have := hf (Real.exp q)
  rwa [abs_of_pos (Real.exp_pos _)] at this

/-- non-vacuity: the tile 22/2148000/1424000 with extent 4096 and the point (1000, -64) of its grid -/
example : (⟨2148000, 1424000, 22⟩ : TileID).InGrid ∧ (2 : ℤ) ^ 22 * 4096 ≤ 2 ^ 34 ∧
    (0 : ℤ) ≤ -64 + 4096 * 1424000 ∧ (-64 : ℤ) + 4096 * 1424000 ≤ 4096 * 2 ^ 22 := by decide

/-- **C76** `ConvertPoint` in float64 arithmetic gives Web-Mercator metres: 20037508.34 m from the centre of the map to each
edge, within a micrometre. -/
theorem C76_mercator {M : MathExp} (hM : AccurateExp M) (p : ℚ × ℚ) (h1 : |(p.1 : ℝ)| ≤ 180) (h2 : |(p.2 : ℝ)| ≤ 85.5) :
    |((convertPoint M.toMathLib p).1 : ℝ) - 20037508.34 * (p.1 / 180)| ≤ 0.000001 ∧
    |((convertPoint M.toMathLib p).2 : ℝ) - 20037508.34 * (1 - 2 * between 0 1 (worldY p.2))| ≤ 0.000001 := by
  have hP : P = 20037508.34 := by unfold P pole; norm_num
  have he : eps ≤ 1 / 10 ^ 15 := by unfold eps; norm_num
  have he0 := eps_pos
  constructor
  · have h := east_near (q := p.1) (lng := p.1) (by rw [sub_self, abs_zero]; positivity) (by linarith)
    rw [hP] at h
    refine h.trans ?_
    linarith
  · have h := convert_near hM p h2
    rw [clamp_world, ← world_L h2, hP] at h
    refine h.trans ?_
    linarith

end Verif.MvtProj.Float
