import Verif.Spec.MvtTileFloat
import Verif.Proof.MvtTileGeo
import Verif.Props.MvtFloat

/-!
# C80: a tile of lon/lat features written and read back in float64
-/
namespace Verif.MvtLL
open Verif.Go Verif.Pbf Verif.Mvt Verif.Mvt.Spec Verif.Tid Verif.Tid.Float Verif.MvtProj.Float

theorem ext_lt {c : Config} (h : c.extent < 2 ^ 31) : c.ext < 2 ^ 31 := by unfold Config.ext; split <;> omega

theorem gridF_i32 (M : MathLib) (junk : ℚ → Int) (hj : ∀ v, IsI32 (junk v)) (c : Config) (he : c.extent < 2 ^ 31) (p : ℚ × ℚ) :
    IsI32 (c.gridF M junk p).1 ∧ IsI32 (c.gridF M junk p).2 := by
  have h32 : ∀ v, IsI32 (toI32 junk v) := by
    intro v
    unfold toI32
    split
    · unfold IsI32; omega
    · exact hj v
  have hc : ∀ v, IsI32 v → IsI32 (clampCoord (c.ext : Int) v) := by
    intro v hv
    have := ext_lt he
    rw [clampCoord_eq (by omega)]
    unfold IsI32 at *
    omega
  unfold Config.gridF MvtProj.Float.singlePoint
  simp only
  split
  · exact ⟨hc _ (h32 _), hc _ (h32 _)⟩
  · exact ⟨h32 _, h32 _⟩

theorem LayerGoodF.at {M : MathLib} {junk : ℚ → Int} {c : Config} {fs : List (GeoFeatureOf (ℚ × ℚ))} (hj : ∀ v, IsI32 (junk v))
    (h : LayerGoodF M junk c fs) : LayerAt (c.gridF M junk) (c.gridF M junk) c fs :=
  ⟨h.extent, h.version, fun f hf => ⟨(h.feats f hf).id, (h.feats f hf).props, fun _ _ => rfl,
    fun p _ => gridF_i32 M junk hj c h.extent p, (h.feats f hf).geo⟩⟩

/-- **C80.** `WriteLayer` does not panic on such features, whatever package `math` computes. -/
theorem C80_writes (P : Proto) (nc : NumCodec) (M : MathLib) (junk : ℚ → Int) (hj : ∀ v, IsI32 (junk v)) (c : Config)
    (fs : List (GeoFeatureOf (ℚ × ℚ))) (h : LayerGoodF M junk c fs) : ∃ b, writeLayerF P nc M junk c fs = some b :=
  writes_at P nc _ _ c fs (h.at hj)

/-- **C80.** Write any layers of lon/lat features with `WriteLayer` in float64 arithmetic and concatenate the bytes. `NewTile` returns the layers in
order with their name, extent and version, and the features of each, converted with `ToGeoJSON` for the layer's tile, are the written ones in
order: same id, same properties, and the same geometry with each position written as a grid point and read back from it (`C80_position`: at
most 0.52 of a grid cell away). Holds whatever package `math` computes and whatever int32 an out-of-range float becomes (`junk`). `late` is
the evaluation order of `Buf.Pos + ReadVarint()`, as in C30. -/
theorem C80_tile_roundtrip (P : Proto) (hP : P = mapboxProto ∨ P = lkProto) (nc : NumCodec) (hnc : nc.Law) (M : MathExp) (junk : ℚ → Int)
    (hj : ∀ v, IsI32 (junk v)) (ls : List (Config × List (GeoFeatureOf (ℚ × ℚ)))) (hls : ∀ x ∈ ls, LayerGoodF M.toMathLib junk x.1 x.2)
    (bs : List Bytes) (hb : List.Forall₂ (fun x b => writeLayerF P nc M.toMathLib junk x.1 x.2 = some b) ls bs)
    (hlen : bs.flatten.length ≤ 2 ^ 32) (late : Bool)
    (hlate : late = true ∨ ∀ x ∈ ls, ∀ f ∈ x.2, ∀ w, geoWords (x.1.gridF M.toMathLib junk) f.geo = some w → 8 ≤ w.2.length)
    (n : Nat) (hn : bs.flatten.length + 5 < n) :
    ∃ T : TS, newTile P nc bs.flatten n = .ok T ∧
      List.Forall₂ (fun (x : Config × List (GeoFeatureOf (ℚ × ℚ))) L => L.name = x.1.name ∧ L.extent = (x.1.ext : Int) ∧
        L.version = (if x.1.version = 0 then 2 else (x.1.version : Int)) ∧
        List.Forall₂ (FeatureAt P bs.flatten late n L (toLonLatFeatureF M bs.flatten x.1.tile)
          (ReadsAt (x.1.gridF M.toMathLib junk) (lonLatF M x.1.tile x.1.ext))) x.2 L.features) ls T.layers :=
  tile_at P hP nc hnc (fun c => c.gridF M.toMathLib junk) (fun c => c.gridF M.toMathLib junk) (fun c => lonLatF M c.tile) ls
    (fun x hx => (hls x hx).at hj) bs hb hlen late hlate n hn

/-- **C80.** With functions of `math` accurate to 2^-50: the position read back for a written position near the tile is at most 0.52 of a grid cell
(half a cell is what rounding costs) from where it should go, in each direction. -/
theorem C80_position {M : MathExp} (hM : AccurateExp M) (junk : ℚ → Int) (c : Config) (hg : c.tile.InGrid) (he : c.extent ≤ 1000000000)
    (hz : 2 ^ c.tile.Z * c.ext ≤ 2 ^ 34) (p : ℚ × ℚ) (hp : NearTile c.tile c.ext p) :
    let q := gridPos c.tile c.ext (lonLatF M c.tile c.ext (c.gridF M.toMathLib junk p))
    |q.1 - (goal c.extentBool c.tile c.ext p).1| ≤ 0.52 ∧ |q.2 - (goal c.extentBool c.tile c.ext p).2| ≤ 0.52 := by
  have e0 : (0 : Int) < (c.ext : Int) := by have := c.ext_pos; omega
  have e1 : (c.ext : Int) ≤ 1000000000 := by unfold Config.ext; split <;> omega
  have hz' : (2 : ℤ) ^ c.tile.Z * (c.ext : Int) ≤ 2 ^ 34 := by exact_mod_cast hz
  have hE : (0 : ℝ) < (c.ext : ℝ) := by exact_mod_cast c.ext_pos
  obtain ⟨l1, l2, hx, hy⟩ := hp
  have cast : ((c.ext : Int) : ℝ) = (c.ext : ℝ) := by push_cast; rfl
  unfold goal
  cases hb : c.extentBool with
  | false =>
    simp only [Bool.false_eq_true, if_false]
    have hgf : c.gridF M.toMathLib junk p = MvtProj.Float.singlePoint M.toMathLib junk (newCursorExtent M.toMathLib c.tile (c.ext : Int)) p := by
      unfold Config.gridF Config.cursorF; rw [hb]; rfl
    have := C76_back hM junk c.tile hg (c.ext : Int) e0 e1 hz' p l1 l2 (by rw [cast]; exact hx) (by rw [cast]; exact hy)
    rw [cast] at this
    rw [hgf]
    exact this
  | true =>
    simp only [if_true]
    have hgf : c.gridF M.toMathLib junk p =
        MvtProj.Float.singlePoint M.toMathLib junk { newCursorExtent M.toMathLib c.tile (c.ext : Int) with ExtentBool := true } p := by
      unfold Config.gridF Config.cursorF; rw [hb]
    have := C76_clamped hM junk c.tile hg (c.ext : Int) e0 e1 hz' p l1 l2
      (by rw [cast, abs_le]; constructor <;> linarith [hx.1, hx.2]) (by rw [cast]; exact hy)
    rw [← hgf, cast] at this
    obtain ⟨⟨q1, q2, q3, q4⟩, a, b⟩ := this
    obtain ⟨g1, g2, g3, g4⟩ := hg
    have hy0 : 0 ≤ (c.ext : Int) * c.tile.Y := mul_nonneg e0.le g3
    have hy1 : (c.ext : Int) * (c.tile.Y + 1) ≤ c.ext * 2 ^ c.tile.Z := by
      apply mul_le_mul_of_nonneg_left _ e0.le
      omega
    have hr := read_pos hM c.tile ⟨g1, g2, g3, g4⟩ (c.ext : Int) e0 hz' (c.gridF M.toMathLib junk p).1 (c.gridF M.toMathLib junk p).2
      ⟨by omega, by omega⟩ ⟨by omega, by linarith⟩
    obtain ⟨_, _, r1, r2⟩ := hr
    rw [cast] at r1 r2
    constructor
    · have := abs_sub_le (gridPos c.tile c.ext (lonLatF M c.tile c.ext (c.gridF M.toMathLib junk p))).1 ((c.gridF M.toMathLib junk p).1 : ℝ)
        (between 0 c.ext (gridPos c.tile c.ext p).1)
      refine this.trans ?_
      have r1' : |(gridPos c.tile c.ext (lonLatF M c.tile c.ext (c.gridF M.toMathLib junk p))).1 - ((c.gridF M.toMathLib junk p).1 : ℝ)| ≤ 0.001 := r1
      linarith
    · have := abs_sub_le (gridPos c.tile c.ext (lonLatF M c.tile c.ext (c.gridF M.toMathLib junk p))).2 ((c.gridF M.toMathLib junk p).2 : ℝ)
        (between 0 c.ext (gridPos c.tile c.ext p).2)
      refine this.trans ?_
      have r2' : |(gridPos c.tile c.ext (lonLatF M c.tile c.ext (c.gridF M.toMathLib junk p))).2 - ((c.gridF M.toMathLib junk p).2 : ℝ)| ≤ 0.001 := r2
      linarith

/-- C80: with clamping all grid coordinates are between 0 and the extent, whatever the position, so for extents up to 32767 the conditions on sizes
(`GeoOkAt`) always hold. -/
theorem C80_clamped_cells (M : MathLib) (junk : ℚ → Int) (c : Config) (hb : c.extentBool = true) (p : ℚ × ℚ) :
    0 ≤ (c.gridF M junk p).1 ∧ (c.gridF M junk p).1 ≤ c.ext ∧ 0 ≤ (c.gridF M junk p).2 ∧ (c.gridF M junk p).2 ≤ c.ext := by
  have hc : ∀ v, 0 ≤ clampCoord (c.ext : Int) v ∧ clampCoord (c.ext : Int) v ≤ c.ext := by
    intro v
    rw [clampCoord_eq (by omega)]
    omega
  have hf : (c.cursorF M).ExtentBool = true := hb
  have hx : (c.cursorF M).Extent = (c.ext : Int) := rfl
  unfold Config.gridF MvtProj.Float.singlePoint
  simp only
  rw [if_pos hf, hx]
  exact ⟨(hc _).1, (hc _).2, (hc _).1, (hc _).2⟩

/-- C80, which layers qualify: with clamping and an extent up to 32767 every layer of lines, polygons, multi-lines and multi-polygons without empty
parts (and of points not written on the tile's corner) does, at any positions. -/
theorem C80_clamped_good (M : MathLib) (junk : ℚ → Int) (c : Config) (hb : c.extentBool = true) (he : c.ext ≤ 32767) (hv : c.version < 2 ^ 63)
    (fs : List (GeoFeatureOf (ℚ × ℚ)))
    (h : ∀ f ∈ fs, (match f.id with | .uint _ => False | .int v => IsI64 v | _ => True) ∧
      (∀ k v, (k, v) ∈ f.props → ValOk v ∧ v ≠ .unhashable) ∧ GeoShape (c.gridF M junk) f.geo) : LayerGoodF M junk c fs := by
  refine ⟨?_, hv, fun f hf => ⟨(h f hf).1, (h f hf).2.1, ?_⟩⟩
  · unfold Config.ext at he; split at he <;> omega
  · exact geoOk_inside _ _ (c.ext : Int) (by omega) (C80_clamped_cells M junk c hb) (h f hf).2.2

/-- C80, which layers qualify with the default configuration. -/
theorem C80_default_good (M : MathLib) (junk : ℚ → Int) (name : Bytes) (t : TileID) (fs : List (GeoFeatureOf (ℚ × ℚ)))
    (h : ∀ f ∈ fs, (match f.id with | .uint _ => False | .int v => IsI64 v | _ => True) ∧
      (∀ k v, (k, v) ∈ f.props → ValOk v ∧ v ≠ .unhashable) ∧ GeoShape ((newConfig name t).gridF M junk) f.geo) :
    LayerGoodF M junk (newConfig name t) fs :=
  C80_clamped_good M junk _ rfl (by show 4096 ≤ 32767; norm_num) (by show 0 < 2 ^ 63; norm_num) fs h

/-- C80: the positions of the map within one tile of the tile are near it in the sense of `C80_position`. -/
theorem C80_near_tile (t : TileID) (hg : t.InGrid) (e : ℕ) (p : ℚ × ℚ) (h1 : |(p.1 : ℝ)| ≤ 600) (h2 : |(p.2 : ℝ)| ≤ 85.5)
    (hx : (t.X - 1 : ℝ) ≤ worldX p.1 * 2 ^ t.Z ∧ worldX p.1 * 2 ^ t.Z ≤ t.X + 2)
    (hy : (t.Y - 1 : ℝ) ≤ worldY p.2 * 2 ^ t.Z ∧ worldY p.2 * 2 ^ t.Z ≤ t.Y + 2) : NearTile t e p := by
  have e0 : (0 : ℝ) ≤ e := Nat.cast_nonneg e
  have hn : (0 : ℝ) < 2 ^ t.Z := by positivity
  obtain ⟨g1, g2, g3, g4⟩ := hg
  have y0 : (0 : ℝ) ≤ t.Y := by exact_mod_cast g3
  have y1 : (t.Y : ℝ) + 1 ≤ 2 ^ t.Z := by exact_mod_cast (show t.Y + 1 ≤ 2 ^ t.Z by omega)
  refine ⟨h1, h2, ⟨?_, ?_⟩, ?_⟩
  · unfold gridPos; simp only; nlinarith
  · unfold gridPos; simp only; nlinarith
  · unfold gridPos
    simp only
    rw [abs_mul, abs_of_nonneg e0]
    apply mul_le_mul_of_nonneg_right _ e0
    have hb : between 0 1 (worldY p.2) * 2 ^ t.Z = between 0 (2 ^ t.Z) (worldY p.2 * 2 ^ t.Z) := by
      unfold between
      rw [max_mul_of_nonneg _ _ hn.le, min_mul_of_nonneg _ _ hn.le, zero_mul, one_mul]
    rw [hb]
    unfold between
    rw [abs_le]
    constructor
    · have : (0:ℝ) ≤ max 0 (min (2 ^ t.Z) (worldY p.2 * 2 ^ t.Z)) := le_max_left _ _
      have h3 : min ((2:ℝ) ^ t.Z) (worldY p.2 * 2 ^ t.Z) ≤ max 0 (min (2 ^ t.Z) (worldY p.2 * 2 ^ t.Z)) := le_max_right _ _
      have h4 : (t.Y - 1 : ℝ) ≤ min ((2:ℝ) ^ t.Z) (worldY p.2 * 2 ^ t.Z) := le_min (by linarith) hy.1
      linarith
    · have : max 0 (min ((2:ℝ) ^ t.Z) (worldY p.2 * 2 ^ t.Z)) ≤ t.Y + 2 :=
        max_le (by linarith) ((min_le_right _ _).trans hy.2)
      linarith

/-- C80, a case that meets the hypotheses, for any `math`: a line and a triangle in a tile of zoom 3, default configuration. -/
theorem C80_example (M : MathLib) (junk : ℚ → Int) : LayerGoodF M junk (newConfig [97] ⟨4, 3, 3⟩)
    [⟨.int 7, [([107], .str [120])], .lineString [(1, 1), (20, 30), (20, 30)]⟩,
     ⟨.none, [([107], .bool true)], .polygon [[(1, 1), (40, 2), (20, 31)]]⟩] := by
  apply C80_default_good
  intro f hf
  simp only [List.mem_cons, List.not_mem_nil, or_false] at hf
  rcases hf with rfl | rfl
  · refine ⟨by show IsI64 7; unfold IsI64; omega, ?_, by simp, by norm_num⟩
    intro k v h
    simp only [List.mem_singleton, Prod.mk.injEq] at h
    rw [h.2]
    exact ⟨by show 1 < _; omega, by simp⟩
  · refine ⟨trivial, ?_, by simp, ?_⟩
    · intro k v h
      simp only [List.mem_singleton, Prod.mk.injEq] at h
      rw [h.2]
      exact ⟨trivial, by simp⟩
    · intro r hr
      simp only [List.mem_singleton] at hr
      subst hr
      exact ⟨by simp, by norm_num⟩

/-- C80, a position that meets the hypotheses of `C80_position`: 30° east on the equator, seen from the tile just south-east of the map's middle. -/
theorem C80_example_near : NearTile ⟨4, 4, 3⟩ 4096 (30, 0) := by
  have hy : worldY ((0 : ℚ) : ℝ) = 1 / 2 := by unfold worldY; norm_num
  refine C80_near_tile _ ⟨by norm_num, by norm_num, by norm_num, by norm_num⟩ _ _ (by norm_num) (by norm_num) ⟨?_, ?_⟩ ⟨?_, ?_⟩
  · unfold worldX; norm_num
  · unfold worldX; norm_num
  · simp only [hy]; norm_num
  · simp only [hy]; norm_num

end Verif.MvtLL
