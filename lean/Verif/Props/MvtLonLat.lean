import Verif.Proof.MvtTileGeo

/-!
# C72: a lon/lat geometry written to a tile and read back; C73: scaled geometry
-/
namespace Verif.MvtLL
open Verif.Go Verif.Pbf Verif.Mvt Verif.Mvt.Spec Verif.MvtProj Verif.Tid

theorem goRound_bound {v : ℝ} (h : |v| ≤ 2147483647) : -2147483647 ≤ goRound v ∧ goRound v ≤ 2147483647 := by
  have h1 := abs_le.mp (goRound_near v)
  have h2 := abs_le.mp h
  constructor
  · by_contra hc
    have : goRound v ≤ -2147483648 := by omega
    have : (goRound v : ℝ) ≤ -2147483648 := by exact_mod_cast this
    linarith [h1.1, h1.2, h2.1, h2.2]
  · by_contra hc
    have : 2147483648 ≤ goRound v := by omega
    have : (2147483648 : ℝ) ≤ (goRound v : ℝ) := by exact_mod_cast this
    linarith [h1.1, h1.2, h2.1, h2.2]

theorem goRound_mono {v w : ℝ} (h : v ≤ w) : goRound v ≤ goRound w := by
  unfold goRound
  split
  · rw [if_pos (by linarith)]
    exact Int.floor_le_floor (by linarith)
  · split
    · rename_i h1 h2
      have : (0 : Int) ≤ ⌊w + 1 / 2⌋ := Int.floor_nonneg.mpr (by linarith)
      have : (0 : Int) ≤ ⌊-v + 1 / 2⌋ := Int.floor_nonneg.mpr (by linarith)
      omega
    · have := Int.floor_le_floor (show -w + 1 / 2 ≤ -v + 1 / 2 by linarith)
      omega

theorem goRound_clamp (x : ℝ) (e : ℕ) : max 0 (min (e : Int) (goRound (x * e))) = goRound (max 0 (min 1 x) * e) := by
  have e0 : (0 : ℝ) ≤ e := Nat.cast_nonneg e
  have z0 : goRound 0 = 0 := by have := goRound_int 0; simpa using this
  have ze : goRound (e : ℝ) = e := by have := goRound_int (e : Int); simpa using this
  by_cases h0 : x ≤ 0
  · have a : goRound (x * e) ≤ 0 := by
      rw [← z0]; exact goRound_mono (mul_nonpos_of_nonpos_of_nonneg h0 e0)
    rw [max_eq_left (by omega), max_eq_left (by rw [min_eq_right (by linarith)]; exact h0), zero_mul, z0]
  · by_cases h1 : 1 ≤ x
    · have a : (e : Int) ≤ goRound (x * e) := by
        rw [← ze]; exact goRound_mono (by nlinarith)
      rw [min_eq_left a, max_eq_right (by omega), min_eq_left h1, max_eq_right (by norm_num), one_mul, ze]
    · push Not at h0 h1
      have a : goRound (x * e) ≤ e := by
        rw [← ze]; exact goRound_mono (by nlinarith)
      have b : 0 ≤ goRound (x * e) := by
        rw [← z0]; exact goRound_mono (by positivity)
      rw [min_eq_right a, max_eq_right b, min_eq_right h1.le, max_eq_right h0.le]

/-- C72: a position of the map is written as its grid point, whatever the conversion of an out-of-range float to an int32 gives. -/
theorem C72_position (junk : ℝ → Int) (c : Config) (hg : c.tile.InGrid) (p : ℝ × ℝ) (hp : PosOk c.tile c.ext p) :
    singlePoint junk c.cursor p = cell c.extentBool c.tile c.ext p := by
  obtain ⟨hm, hx, hy⟩ := hp
  obtain ⟨h1, h2⟩ := hasPoint_lat hm
  have hr : 0 ≤ rowf p.2 ∧ rowf p.2 ≤ 1 := by
    have := (C05_tile_iff_in_bounds p.1 p.2 0 0 0 (by norm_num) h1 h2).2 hm
    rw [tile_Y_eq h1 h2, TileID.mk.injEq] at this
    have h := this.2.1
    rw [Int.floor_eq_iff] at h
    norm_num at h
    exact ⟨h.1, h.2.le⟩
  have e : singlePoint junk (newCursorExtent c.tile (c.ext : Int)) p =
      (goRound ((tilePos c.tile p).1 * c.ext), goRound ((tilePos c.tile p).2 * c.ext)) := by
    rw [single_eq junk c.tile c.ext hg p h1 h2 hr]
    have fit : ∀ v : ℝ, |v| ≤ 2147483647 → toI32 junk v = goRound v := by
      intro v hv
      have := goRound_bound hv
      unfold toI32
      rw [if_pos (by omega)]
    simp only [Int.cast_natCast]
    rw [fit _ hx, fit _ hy]
  unfold cell target
  by_cases hb : c.extentBool = true
  · rw [hb, if_pos rfl]
    have := C35_clamp_exact junk c.cursor p hb (by show (0 : Int) ≤ (c.ext : Int); omega)
    simp only at this
    rw [this]
    have e2 : ({ c.cursor with ExtentBool := false } : MvtProj.Cursor) = newCursorExtent c.tile (c.ext : Int) := rfl
    rw [e2, e]
    show (max 0 (min (c.ext : Int) _), max 0 (min (c.ext : Int) _)) = _
    rw [goRound_clamp, goRound_clamp]
  · have hb' : c.extentBool = false := by simpa using hb
    rw [hb', if_neg (by simp)]
    have e2 : c.cursor = newCursorExtent c.tile (c.ext : Int) := by unfold Config.cursor; rw [hb']; rfl
    rw [e2, e]

/-- C72: the position read back for a written position is within half a grid cell of where it should go, in each direction. -/
theorem C72_near (clamp : Bool) (t : TileID) (e : ℕ) (he : 0 < e) (p : ℝ × ℝ) :
    |(tilePos t (place t e (cell clamp t e p))).1 - (target clamp t p).1| ≤ 1 / (2 * e) ∧
    |(tilePos t (place t e (cell clamp t e p))).2 - (target clamp t p).2| ≤ 1 / (2 * e) := by
  have e0 : (0 : ℝ) < e := by exact_mod_cast he
  have conv : ∀ f : ℝ, |(goRound (f * e) : ℝ) / e - f| ≤ 1 / (2 * e) := by
    intro f
    have h := goRound_near (f * e)
    have : (goRound (f * e) : ℝ) / e - f = ((goRound (f * e) : ℝ) - f * e) / e := by field_simp
    rw [this, abs_div, abs_of_pos e0, div_le_div_iff₀ e0 (by positivity)]
    nlinarith
  have hpos := (project_pos t (e : Int) (by exact_mod_cast he) (((cell clamp t e p).1 : ℝ), ((cell clamp t e p).2 : ℝ))).1
  have : place t e (cell clamp t e p) = toLonLat t (e : Int) (((cell clamp t e p).1 : ℝ), ((cell clamp t e p).2 : ℝ)) := rfl
  rw [this, hpos]
  simp only [Int.cast_natCast]
  exact ⟨conv _, conv _⟩

/-- C72: with clamping the grid point is one of the tile's, so the position read back is within the tile. -/
theorem C72_inside (t : TileID) (e : ℕ) (he : 0 < e) (p : ℝ × ℝ) :
    let q := tilePos t (place t e (cell true t e p))
    0 ≤ q.1 ∧ q.1 ≤ 1 ∧ 0 ≤ q.2 ∧ q.2 ≤ 1 := by
  have e0 : (0 : ℝ) < e := by exact_mod_cast he
  have hpos := (project_pos t (e : Int) (by exact_mod_cast he) (((cell true t e p).1 : ℝ), ((cell true t e p).2 : ℝ))).1
  have : place t e (cell true t e p) = toLonLat t (e : Int) (((cell true t e p).1 : ℝ), ((cell true t e p).2 : ℝ)) := rfl
  intro q
  have hq : q = (((cell true t e p).1 : ℝ) / ((e : Int) : ℝ), ((cell true t e p).2 : ℝ) / ((e : Int) : ℝ)) := by
    rw [show q = tilePos t (place t e (cell true t e p)) from rfl, this, hpos]
  have key : ∀ x : ℝ, 0 ≤ (goRound (max 0 (min 1 x) * e) : ℝ) / e ∧ (goRound (max 0 (min 1 x) * e) : ℝ) / e ≤ 1 := by
    intro x
    rw [← goRound_clamp]
    have h1 : (0 : Int) ≤ max 0 (min (e : Int) (goRound (x * e))) := le_max_left _ _
    have h2 : max 0 (min (e : Int) (goRound (x * e))) ≤ e := by omega
    have h1' : (0 : ℝ) ≤ ((max 0 (min (e : Int) (goRound (x * e))) : Int) : ℝ) := by exact_mod_cast h1
    have h2' : ((max 0 (min (e : Int) (goRound (x * e))) : Int) : ℝ) ≤ e := by exact_mod_cast h2
    exact ⟨by positivity, (div_le_one e0).2 h2'⟩
  rw [hq]
  have k1 := key (tilePos t p).1
  have k2 := key (tilePos t p).2
  simp only [Int.cast_natCast]
  exact ⟨k1.1, k1.2, k2.1, k2.2⟩

/-! ### Layers and tiles -/

theorem cell_i32 {c : Config} {p : ℝ × ℝ} (he : c.extent < 2 ^ 31) (h : PosOk c.tile c.ext p) :
    IsI32 (cell c.extentBool c.tile c.ext p).1 ∧ IsI32 (cell c.extentBool c.tile c.ext p).2 := by
  obtain ⟨_, hx, hy⟩ := h
  have hE : c.ext < 2 ^ 31 := by unfold Config.ext; split <;> omega
  unfold cell target
  cases c.extentBool with
  | false =>
    have a := goRound_bound hx
    have b := goRound_bound hy
    simp only [Bool.false_eq_true, if_false]
    unfold IsI32
    omega
  | true =>
    simp only [if_true]
    rw [← goRound_clamp, ← goRound_clamp]
    unfold IsI32
    omega

theorem LayerGood.at {c : Config} {fs : List GeoFeature} (h : LayerGood c fs) (junk : ℝ → Int) :
    LayerAt (singlePoint junk c.cursor) (cell c.extentBool c.tile c.ext) c fs :=
  ⟨h.extent, h.version, fun f hf => ⟨(h.feats f hf).id, (h.feats f hf).props,
    fun p hp => C72_position junk c h.grid p ((h.feats f hf).pos p hp), fun p hp => cell_i32 h.extent ((h.feats f hf).pos p hp),
    (h.feats f hf).geo⟩⟩

/-- **C72.** `WriteLayer` does not panic on such features. -/
theorem C72_writes (P : Proto) (nc : NumCodec) (junk : ℝ → Int) (c : Config) (fs : List GeoFeature) (h : LayerGood c fs) :
    ∃ b, writeLayer P nc junk c fs = some b :=
  writes_at P nc _ _ c fs (h.at junk)

/-- **C72.** Write any layers of lon/lat features with `WriteLayer` (positions on the map, geometries that survive) and concatenate the
bytes. `NewTile` returns the layers in order with their name, extent and version, and the features of each, converted with `ToGeoJSON` for
the layer's tile, are the written ones in order: same id, same properties, and the same geometry with each position moved to the nearest point
of the grid (see `C72_near`). `late` is the evaluation order of `Buf.Pos + ReadVarint()`, as in C30. -/
theorem C72_tile_roundtrip (P : Proto) (hP : P = mapboxProto ∨ P = lkProto) (nc : NumCodec) (hnc : nc.Law) (junk : ℝ → Int)
    (ls : List (Config × List GeoFeature)) (hls : ∀ x ∈ ls, LayerGood x.1 x.2) (bs : List Bytes)
    (hb : List.Forall₂ (fun x b => writeLayer P nc junk x.1 x.2 = some b) ls bs) (hlen : bs.flatten.length ≤ 2 ^ 32) (late : Bool)
    (hlate : late = true ∨ ∀ x ∈ ls, ∀ f ∈ x.2, ∀ w, geoWords (singlePoint junk x.1.cursor) f.geo = some w → 8 ≤ w.2.length)
    (n : Nat) (hn : bs.flatten.length + 5 < n) :
    ∃ T : TS, newTile P nc bs.flatten n = .ok T ∧
      List.Forall₂ (fun (x : Config × List GeoFeature) L => L.name = x.1.name ∧ L.extent = (x.1.ext : Int) ∧
        L.version = (if x.1.version = 0 then 2 else (x.1.version : Int)) ∧
        List.Forall₂ (FeatureIs P bs.flatten late n x.1 L) x.2 L.features) ls T.layers :=
  tile_at P hP nc hnc (fun c => singlePoint junk c.cursor) (fun c => cell c.extentBool c.tile c.ext)
    (fun c extent p => toLonLat c.tile extent (ptR p)) ls (fun x hx => (hls x hx).at junk) bs hb hlen late hlate n hn

/-! ### When the hypotheses hold -/

theorem onMap_pos {t : TileID} (hg : t.InGrid) {p : ℝ × ℝ} (hm : (bounds ⟨0, 0, 0⟩).HasPoint p.1 p.2) :
    |(tilePos t p).1| ≤ 2 ^ t.Z ∧ |(tilePos t p).2| ≤ 2 ^ t.Z := by
  obtain ⟨h1, h2⟩ := hasPoint_lat hm
  have hr : 0 ≤ rowf p.2 ∧ rowf p.2 ≤ 1 := by
    have := (C05_tile_iff_in_bounds p.1 p.2 0 0 0 (by norm_num) h1 h2).2 hm
    rw [tile_Y_eq h1 h2, TileID.mk.injEq] at this
    have h := this.2.1
    rw [Int.floor_eq_iff] at h
    norm_num at h
    exact ⟨h.1, h.2.le⟩
  have hx : 0 ≤ (p.1 + 180) / 360 ∧ (p.1 + 180) / 360 ≤ 1 := by
    obtain ⟨a, b, _, _⟩ := hm
    unfold bounds ul at a b
    norm_num at a b
    constructor
    · apply div_nonneg <;> linarith
    · rw [div_le_one (by norm_num)]; linarith
  obtain ⟨g1, g2, g3, g4⟩ := hg
  have hn : (0 : ℝ) < 2 ^ t.Z := by positivity
  have x0 : (0 : ℝ) ≤ t.X := by exact_mod_cast g1
  have x1 : (t.X : ℝ) ≤ 2 ^ t.Z := by exact_mod_cast g2.le
  have y0 : (0 : ℝ) ≤ t.Y := by exact_mod_cast g3
  have y1 : (t.Y : ℝ) ≤ 2 ^ t.Z := by exact_mod_cast g4.le
  have key : ∀ f k : ℝ, 0 ≤ f ∧ f ≤ 1 → 0 ≤ k → k ≤ 2 ^ t.Z → |f * 2 ^ t.Z - k| ≤ 2 ^ t.Z := by
    intro f k hf hk hk2
    rw [abs_le]
    constructor <;> nlinarith [hf.1, hf.2]
  exact ⟨key _ _ hx x0 x1, key _ _ hr y0 y1⟩

/-- C72: every position of the map will do, as long as the whole map's grid has int32 coordinates (extent 4096: zoom 18 and below). -/
theorem C72_any_position (t : TileID) (hg : t.InGrid) (e : ℕ) (he : e * 2 ^ t.Z ≤ 2147483647) (p : ℝ × ℝ)
    (hm : (bounds ⟨0, 0, 0⟩).HasPoint p.1 p.2) : PosOk t e p := by
  obtain ⟨h1, h2⟩ := onMap_pos hg hm
  have e0 : (0 : ℝ) ≤ e := Nat.cast_nonneg e
  have he' : (2 : ℝ) ^ t.Z * e ≤ 2147483647 := by
    have : ((e * 2 ^ t.Z : ℕ) : ℝ) ≤ 2147483647 := by exact_mod_cast he
    push_cast at this
    linarith
  refine ⟨hm, ?_, ?_⟩
  · rw [abs_mul, abs_of_nonneg e0]
    exact (mul_le_mul_of_nonneg_right h1 e0).trans he'
  · rw [abs_mul, abs_of_nonneg e0]
    exact (mul_le_mul_of_nonneg_right h2 e0).trans he'

/-- C72: with clamping all grid coordinates are between 0 and the extent, so extents up to 32767 meet the conditions on sizes. -/
theorem C72_clamped_cells (t : TileID) (e : ℕ) (p : ℝ × ℝ) :
    0 ≤ (cell true t e p).1 ∧ (cell true t e p).1 ≤ e ∧ 0 ≤ (cell true t e p).2 ∧ (cell true t e p).2 ≤ e := by
  unfold cell target
  simp only [if_true]
  rw [← goRound_clamp, ← goRound_clamp]
  omega

/-- C72, which layers qualify: with clamping and an extent up to 32767 every layer of lines, polygons, multi-lines and multi-polygons without empty
parts (and of points not written on the tile's corner), at positions of the map near enough for int32 grid coordinates. -/
theorem C72_clamped_good (c : Config) (hg : c.tile.InGrid) (hb : c.extentBool = true) (he : c.ext ≤ 32767) (hv : c.version < 2 ^ 63)
    (fs : List GeoFeature)
    (h : ∀ f ∈ fs, (match f.id with | .uint _ => False | .int v => IsI64 v | _ => True) ∧
      (∀ k v, (k, v) ∈ f.props → ValOk v ∧ v ≠ .unhashable) ∧ (∀ p ∈ positions f.geo, PosOk c.tile c.ext p) ∧
      GeoShape (cell true c.tile c.ext) f.geo) : LayerGood c fs := by
  refine ⟨hg, ?_, hv, fun f hf => ⟨(h f hf).1, (h f hf).2.1, (h f hf).2.2.1, ?_⟩⟩
  · unfold Config.ext at he; split at he <;> omega
  · rw [hb]
    exact geoOk_inside _ _ (c.ext : Int) (by omega) (C72_clamped_cells c.tile c.ext) (h f hf).2.2.2

/-- C72: which positions are written as the first grid point: those less than half a cell from the tile's west and north edges. -/
theorem C72_first_cell (clamp : Bool) (t : TileID) (e : ℕ) (p : ℝ × ℝ) :
    cell clamp t e p = (0, 0) ↔ |(target clamp t p).1 * e| < 1 / 2 ∧ |(target clamp t p).2 * e| < 1 / 2 := by
  have key : ∀ v : ℝ, goRound v = 0 ↔ |v| < 1 / 2 := by
    intro v
    unfold goRound
    split
    · rename_i h
      rw [abs_of_nonneg h, Int.floor_eq_iff]
      constructor
      · rintro ⟨_, h2⟩; norm_num at h2; linarith
      · intro h; constructor <;> norm_num <;> linarith
    · rename_i h
      push Not at h
      rw [abs_of_neg h, neg_eq_zero, Int.floor_eq_iff]
      constructor
      · rintro ⟨_, h2⟩; norm_num at h2; linarith
      · intro h; constructor <;> norm_num <;> linarith
  unfold cell
  rw [Prod.mk.injEq, key, key]

/-- C72, what is lost: a point feature at the first grid point is written as a bare command, which no reader of this package accepts. -/
theorem C72_first_cell_lost (junk : ℝ → Int) (c : Config) (hg : c.tile.InGrid) (p : ℝ × ℝ) (hp : PosOk c.tile c.ext p)
    (h0 : cell c.extentBool c.tile c.ext p = (0, 0)) :
    geoWords (singlePoint junk c.cursor) (.point p) = some (1, [9]) ∧ loadGeometry 1 [9] = none := by
  refine ⟨?_, by decide⟩
  simp only [geoWords]
  rw [makePointFloat_eq, C72_position junk c hg p hp, h0]
  rfl

/-- C72, what is lost: a multi-point of two or more positions is never read back with all of them. -/
theorem C72_multipoint_lost (junk : ℝ → Int) (c : Config) (ps : List (ℝ × ℝ)) (h2 : 2 ≤ ps.length) (hl : ps.length < 2 ^ 29) :
    ∃ ws, geoWords (singlePoint junk c.cursor) (.multiPoint ps) = some (1, ws) ∧
      (loadGeometry 1 ws = none ∨ (∃ p, loadGeometry 1 ws = some (.point p)) ∨
        ∃ qs, loadGeometry 1 ws = some (.multiPoint qs) ∧ qs.length < ps.length) := by
  refine ⟨_, rfl, ?_⟩
  rw [makeMultiPointFloat_eq]
  simpa using C26_multipoint_never_roundtrips (ps.map (singlePoint junk c.cursor)) (by simpa using h2) (by simpa using hl)

/-- C72, what panics: an empty line or ring, and a polygon without rings. -/
theorem C72_empty_panics (sp : ℝ × ℝ → Pt) :
    geoWords sp (.lineString []) = none ∧ geoWords sp (.polygon []) = none ∧ geoWords sp (.polygon [[]]) = none := ⟨rfl, rfl, rfl⟩

/-- C72, a case that meets the hypotheses: a line, a point and a triangle with properties in the world tile, default configuration. -/
theorem C72_example : LayerGood (newConfig [97] ⟨0, 0, 0⟩)
    [⟨.int 7, [([107], .str [120])], .lineString [(0, 0), (90, 0), (90, 0)]⟩, ⟨.none, [], .point (13, 0)⟩,
     ⟨.none, [([107], .bool true)], .polygon [[(0, 0), (90, 0), (45, 0)]]⟩] := by
  have hg : (⟨0, 0, 0⟩ : TileID).InGrid := ⟨by norm_num, by norm_num, by norm_num, by norm_num⟩
  have hm : ∀ x : ℝ, -180 ≤ x → x < 180 → (bounds ⟨0, 0, 0⟩).HasPoint x 0 := by
    intro x h1 h2
    have hpi := Real.pi_pos
    unfold Extrema.HasPoint bounds ul
    norm_num
    have ha : 0 < Real.arctan (Real.sinh Real.pi) := by
      rw [← Real.arctan_zero]
      exact Real.arctan_strictMono (Real.sinh_pos_iff.mpr hpi)
    have hpos : 0 < 180 / Real.pi * Real.arctan (Real.sinh Real.pi) := by positivity
    exact ⟨by linarith, by linarith, hpos, hpos.le⟩
  have hp : ∀ x : ℝ, -180 ≤ x → x < 180 → PosOk ⟨0, 0, 0⟩ 4096 (x, 0) := fun x h1 h2 =>
    C72_any_position _ hg 4096 (by norm_num) _ (hm x h1 h2)
  have hc : ∀ p, |(cell true ⟨0, 0, 0⟩ 4096 p).1| ≤ 4096 ∧ |(cell true ⟨0, 0, 0⟩ 4096 p).2| ≤ 4096 := by
    intro p
    obtain ⟨a, b, c, d⟩ := C72_clamped_cells ⟨0, 0, 0⟩ 4096 p
    rw [abs_le, abs_le]
    push_cast at b d
    omega
  have he : (newConfig [97] ⟨0, 0, 0⟩).ext = 4096 := rfl
  refine ⟨hg, by decide, by decide, ?_⟩
  intro f hf
  simp only [List.mem_cons, List.not_mem_nil, or_false] at hf
  rcases hf with rfl | rfl | rfl
  · refine ⟨by show IsI64 7; unfold IsI64; omega, ?_, ?_, ?_⟩
    · intro k v h
      simp only [List.mem_singleton, Prod.mk.injEq] at h
      rw [h.2]
      exact ⟨by show 1 < _; omega, by simp⟩
    · intro p hpp
      simp only [positions, List.mem_cons, List.not_mem_nil, or_false] at hpp
      rcases hpp with rfl | rfl | rfl <;> exact hp _ (by norm_num) (by norm_num)
    · refine ⟨by simp, by norm_num, fun p _ => ?_⟩
      have := hc p
      exact ⟨lt_of_le_of_lt this.1 (by norm_num), lt_of_le_of_lt this.2 (by norm_num)⟩
  · refine ⟨trivial, by simp, ?_, ?_⟩
    · intro p hpp
      simp only [positions, List.mem_singleton] at hpp
      subst hpp; exact hp _ (by norm_num) (by norm_num)
    · show ¬ cell true ⟨0, 0, 0⟩ 4096 (13, 0) = (0, 0)
      rw [C72_first_cell]
      intro h
      have h1 := h.1
      unfold target tilePos at h1
      norm_num at h1
  · refine ⟨trivial, ?_, ?_, ?_⟩
    · intro k v h
      simp only [List.mem_singleton, Prod.mk.injEq] at h
      rw [h.2]
      exact ⟨trivial, by simp⟩
    · intro p hpp
      simp only [positions, List.flatten_cons, List.flatten_nil, List.append_nil, List.mem_cons, List.not_mem_nil, or_false] at hpp
      rcases hpp with rfl | rfl | rfl <;> exact hp _ (by norm_num) (by norm_num)
    · refine ⟨by simp, fun r hr => ?_⟩
      simp only [List.mem_singleton] at hr
      subst hr
      exact ⟨by simp, by norm_num, areaFits_inside _ _ 4096 (by norm_num) (fun p => C72_clamped_cells ⟨0, 0, 0⟩ 4096 p)⟩

/-! ### C73: scaled geometry -/

/-- A geometry with a function applied to every position. -/
def Geo.map {F G : Type} (f : F → G) : Geo F → Geo G
  | .point p => .point (f p)
  | .multiPoint ps => .multiPoint (ps.map f)
  | .lineString l => .lineString (l.map f)
  | .multiLineString ls => .multiLineString (ls.map (List.map f))
  | .polygon rs => .polygon (rs.map (List.map f))
  | .multiPolygon ps => .multiPolygon (ps.map (List.map (List.map f)))

/-- **C73.** `ConvertGeometry` keeps the kind of a geometry and the number and order of its lines and positions, and replaces every coordinate
by the rounded quotient by `dim`; a nil geometry gives an empty one. `rnd` is the rounding of the external package. -/
theorem C73_convert (rnd : ℝ → ℝ) (dim : ℝ) (g : Geo (ℝ × ℝ)) :
    convertGeometry rnd dim (some g) = some (g.map fun p => (rnd (p.1 / dim), rnd (p.2 / dim))) ∧ convertGeometry rnd dim none = none := by
  refine ⟨?_, rfl⟩
  cases g <;> rfl

/-- **C73.** `LoadGeometryScaled` returns the geometry `LoadGeometry` returns, scaled and rounded, and the same error. -/
theorem C73_load_scaled (rnd : ℝ → ℝ) (dim : ℝ) (b : Bytes) (f : Feature) :
    (∀ gm g, loadGeom b f = some gm → asGeo gm = some g →
      loadGeometryScaled rnd dim b f = (some (g.map fun p => (rnd (p.1 / dim), rnd (p.2 / dim))), true)) ∧
    (loadGeom b f = some .unknown → loadGeometryScaled rnd dim b f = (none, true)) ∧
    (loadGeom b f = none → loadGeometryScaled rnd dim b f = (none, false)) := by
  refine ⟨fun gm g h1 h2 => ?_, fun h => ?_, fun h => ?_⟩
  · unfold loadGeometryScaled
    rw [h1, Option.bind_some, h2, (C73_convert rnd dim g).1]
    rfl
  · unfold loadGeometryScaled
    rw [h]; rfl
  · unfold loadGeometryScaled
    rw [h]; rfl

/-- **C72.** A layer written with the configuration `NewConfig(name, tile)` is read back with that name, extent 4096 and version 2, and its
positions are clamped to the tile (`FeatureIs` for a configuration with `ExtentBool` set moves each position to the nearest grid point of the
tile itself, see `C72_inside`). -/
theorem C72_default (P : Proto) (hP : P = mapboxProto ∨ P = lkProto) (nc : NumCodec) (hnc : nc.Law) (junk : ℝ → Int) (name : Bytes)
    (t : TileID) (fs : List GeoFeature) (hl : LayerGood (newConfig name t) fs) (b : Bytes)
    (hb : writeLayer P nc junk (newConfig name t) fs = some b) (hlen : b.length ≤ 2 ^ 32) (n : Nat) (hn : b.length + 5 < n) :
    ∃ L : Layer, (∃ T : TS, newTile P nc b n = .ok T ∧ T.layers = [L]) ∧ L.name = name ∧ L.extent = 4096 ∧ L.version = 2 ∧
      List.Forall₂ (FeatureIs P b true n ⟨t, name, 4096, 2, true⟩ L) fs L.features := by
  obtain ⟨T, h1, h2⟩ := C72_tile_roundtrip P hP nc hnc junk [(newConfig name t, fs)] (by simpa using hl) [b] (.cons hb .nil)
    (by simpa using hlen) true (Or.inl rfl) n (by simpa using hn)
  have eb : [b].flatten = b := by simp
  rw [eb] at h1 h2
  generalize hT : T.layers = Ls at h2
  cases h2 with
  | cons a r =>
    cases r
    obtain ⟨a1, a2, a3, a4⟩ := a
    exact ⟨_, ⟨T, h1, hT⟩, a1, a2, a3, a4⟩

end Verif.MvtLL
