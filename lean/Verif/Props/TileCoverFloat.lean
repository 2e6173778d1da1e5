import Verif.Props.TilePipFloat
import Verif.Props.TileFloat
import Verif.Props.TileCover

/-! # C90: the tile cover in float64 arithmetic -/
namespace Verif.CoverF
open Verif.F64 Verif.Tid.Float Verif.Go
open Verif.Tid (TileID)
open Verif.Cover (getDif fillVals addTile mergeParts getDif_mem getDif_nodup candidates_nodup mem_addTile mem_fold nodup_addTile
  nodup_fold head_addTile head_fold fillVals_mem)

/-! ## Single tiles -/

theorem tile_X (M : MathLib) (x y y' : ℚ) (z : ℤ) : (tile M x y z).X = (tile M x y' z).X := rfl
theorem tile_Y (M : MathLib) (x x' y : ℚ) (z : ℤ) : (tile M x y z).Y = (tile M x' y z).Y := rfl

/-- Columns never run backwards. -/
theorem col_mono (M : MathLib) {x x' : ℚ} (h : x ≤ x') (y y' : ℚ) (z : ℤ) : (tile M x y z).X ≤ (tile M x' y' z).X := by
  unfold tile
  simp only
  apply Int.floor_mono
  apply rnd_mono
  have : (0 : ℚ) < 2 ^ z := by positivity
  apply mul_le_mul_of_nonneg_right _ this.le
  apply rnd_mono
  apply div_le_div_of_nonneg_right _ (by norm_num)
  apply rnd_mono
  linarith

theorem tile_Z (M : MathLib) (x y : ℚ) (z : Nat) (hz : z < 9223372036854775808) : (tile M x y z).Z = z := by
  unfold tile u64
  simp only
  omega

/-- The latitude is at least 2^-41 of the map's height away from the edges of the rows. -/
def RowClear (zoom : Nat) (lat : ℚ) : Prop := |(lat : ℝ)| ≤ 85 ∧ ∀ k : ℤ, 1 / 2 ^ 41 ≤ |worldY lat - (k : ℝ) / 2 ^ zoom|

theorem row_exact {M : MathLib} (hM : Accurate M) {zoom : Nat} {lat : ℚ} (h : RowClear zoom lat) (x : ℚ) (x' : ℝ) :
    (tile M x lat zoom).Y = (Tid.tile x' lat zoom).Y := by
  obtain ⟨hl, hc⟩ := h
  obtain ⟨l1, l2⟩ := abs_le.mp hl
  have hn : (0 : ℝ) < 2 ^ zoom := by positivity
  have r := row_near hM lat (by linarith) zoom
  have e1 : (Tid.tile x' lat zoom).Y = ⌊worldY (lat : ℝ) * 2 ^ zoom⌋ := by
    unfold Tid.tile worldY
    simp only
    rw [zpow_natCast, show (lat : ℝ) / 180 * Real.pi = (lat : ℝ) * (Real.pi / 180) by ring]
  rw [worldY_eq (by linarith) (by linarith)] at e1 hc
  rw [e1]
  generalize hw : Tid.rowf (lat : ℝ) = w at *
  have he : (300 : ℝ) * eps < 1 / 2 ^ 41 := by unfold eps; norm_num
  set k := ⌊w * 2 ^ zoom⌋ with hk
  have k1 := Int.floor_le (w * 2 ^ zoom)
  have k2 := Int.lt_floor_add_one (w * 2 ^ zoom)
  rw [← hk] at k1 k2
  have c1 := hc k
  have c2 := hc (k + 1)
  have d1 : 0 ≤ w - k / 2 ^ zoom := by rw [sub_nonneg, div_le_iff₀ hn]; exact k1
  have d2 : w - ((k + 1 : ℤ) : ℝ) / 2 ^ zoom ≤ 0 := by
    rw [sub_nonpos, le_div_iff₀ hn]; push_cast; exact k2.le
  rw [abs_of_nonneg d1] at c1
  rw [abs_of_nonpos d2] at c2
  unfold tile
  simp only
  apply floor_near (x := w * 2 ^ zoom) (d := 2 ^ zoom * (1 / 2 ^ 41)) (k := k)
  · have e2 : (2 : ℝ) ^ (zoom : ℤ) = 2 ^ zoom := zpow_natCast _ _
    rw [e2] at r
    exact lt_of_le_of_lt r (mul_lt_mul_of_pos_left he hn)
  · have : (k : ℝ) / 2 ^ zoom + 1 / 2 ^ 41 ≤ w := by linarith
    calc (k : ℝ) + 2 ^ zoom * (1 / 2 ^ 41) = (k / 2 ^ zoom + 1 / 2 ^ 41) * 2 ^ zoom := by field_simp
      _ ≤ _ := by gcongr
  · have : w ≤ ((k + 1 : ℤ) : ℝ) / 2 ^ zoom - 1 / 2 ^ 41 := by linarith
    calc w * 2 ^ zoom ≤ (((k + 1 : ℤ) : ℝ) / 2 ^ zoom - 1 / 2 ^ 41) * 2 ^ zoom := by gcongr
      _ = _ := by push_cast; field_simp

/-! ## Bounding box -/

theorem box_cast (pts : List Pt) : (Cover.boundingBoxPoints (pts.map toR)).W = (boundingBoxPoints pts).W ∧
    (Cover.boundingBoxPoints (pts.map toR)).E = (boundingBoxPoints pts).E ∧
    (Cover.boundingBoxPoints (pts.map toR)).N = (boundingBoxPoints pts).N ∧
    (Cover.boundingBoxPoints (pts.map toR)).S = (boundingBoxPoints pts).S := by
  unfold Cover.boundingBoxPoints boundingBoxPoints
  have gen : ∀ (pts : List Pt) (b : Cover.Box) (c : Box), b.W = c.W → b.E = c.E → b.N = c.N → b.S = c.S →
      ((pts.map toR).foldl Cover.boxStep b).W = (pts.foldl boxStep c).W ∧
      ((pts.map toR).foldl Cover.boxStep b).E = (pts.foldl boxStep c).E ∧
      ((pts.map toR).foldl Cover.boxStep b).N = (pts.foldl boxStep c).N ∧
      ((pts.map toR).foldl Cover.boxStep b).S = (pts.foldl boxStep c).S := by
    intro pts
    induction pts with
    | nil => intro b c h1 h2 h3 h4; exact ⟨h1, h2, h3, h4⟩
    | cons p pts ih =>
      intro b c h1 h2 h3 h4
      simp only [List.map_cons, List.foldl_cons]
      apply ih <;>
      · unfold Cover.boxStep boxStep toR
        simp only [h1, h2, h3, h4, Rat.cast_lt, gt_iff_lt]
        by_cases a1 : p.1 < c.W <;> by_cases a2 : c.E < p.1 <;> by_cases a3 : p.2 < c.S <;> by_cases a4 : c.N < p.2 <;>
          simp [a1, a2, a3, a4, h1, h2, h3, h4]
  exact gen pts _ _ (by norm_num) (by norm_num) (by norm_num) (by norm_num)

/-- **C90** The bounding box of a closed ring is the exact one: no arithmetic is done. -/
theorem C90_box (a : Pt) (mid : List Pt) (h : ∀ p ∈ a :: mid, |p.1| ≤ 180 ∧ |p.2| ≤ 90) :
    (∀ p ∈ a :: mid, (boundingBoxPoints (a :: (mid ++ [a]))).W ≤ p.1 ∧ p.1 ≤ (boundingBoxPoints (a :: (mid ++ [a]))).E ∧
      (boundingBoxPoints (a :: (mid ++ [a]))).S ≤ p.2 ∧ p.2 ≤ (boundingBoxPoints (a :: (mid ++ [a]))).N) ∧
    (∃ p ∈ a :: mid, p.1 = (boundingBoxPoints (a :: (mid ++ [a]))).W) ∧ (∃ p ∈ a :: mid, p.1 = (boundingBoxPoints (a :: (mid ++ [a]))).E) ∧
    (∃ p ∈ a :: mid, p.2 = (boundingBoxPoints (a :: (mid ++ [a]))).S) ∧ (∃ p ∈ a :: mid, p.2 = (boundingBoxPoints (a :: (mid ++ [a]))).N) := by
  have hb := Cover.C10_closed (toR a) (mid.map toR) (by
    intro p hp
    rw [← List.map_cons, List.mem_map] at hp
    obtain ⟨q, hq, rfl⟩ := hp
    obtain ⟨h1, h2⟩ := h q hq
    obtain ⟨h1, h3⟩ := abs_le.mp h1
    obtain ⟨h2, h4⟩ := abs_le.mp h2
    simp only [toR]
    exact ⟨by exact_mod_cast h1, by exact_mod_cast h3, by exact_mod_cast h2, by exact_mod_cast h4⟩)
  have e : toR a :: (mid.map toR ++ [toR a]) = (a :: (mid ++ [a])).map toR := by simp
  rw [e] at hb
  obtain ⟨cw, ce, cn, cs⟩ := box_cast (a :: (mid ++ [a]))
  obtain ⟨hb, hw, he, hs, hn⟩ := hb
  rw [cw] at hw
  rw [ce] at he
  rw [cs] at hs
  rw [cn] at hn
  have sub : ∀ p ∈ a :: (mid ++ [a]), p ∈ a :: mid := by
    intro p hp
    simp only [List.mem_cons, List.mem_append, List.not_mem_nil, or_false] at hp ⊢
    tauto
  refine ⟨fun p hp => ?_, ?_, ?_, ?_, ?_⟩
  · have := hb (toR p) (List.mem_map_of_mem (by
      simp only [List.mem_cons, List.mem_append, List.not_mem_nil, or_false] at hp ⊢; tauto))
    rw [cw, ce, cn, cs] at this
    unfold toR at this
    simpa only [Rat.cast_le] using this
  all_goals
    first
    | obtain ⟨p, hp, hpe⟩ := hw
      obtain ⟨q, hq, rfl⟩ := List.mem_map.1 hp
      exact ⟨q, sub q hq, by simp only [toR] at hpe; exact_mod_cast hpe⟩
    | obtain ⟨p, hp, hpe⟩ := he
      obtain ⟨q, hq, rfl⟩ := List.mem_map.1 hp
      exact ⟨q, sub q hq, by simp only [toR] at hpe; exact_mod_cast hpe⟩
    | obtain ⟨p, hp, hpe⟩ := hs
      obtain ⟨q, hq, rfl⟩ := List.mem_map.1 hp
      exact ⟨q, sub q hq, by simp only [toR] at hpe; exact_mod_cast hpe⟩
    | obtain ⟨p, hp, hpe⟩ := hn
      obtain ⟨q, hq, rfl⟩ := List.mem_map.1 hp
      exact ⟨q, sub q hq, by simp only [toR] at hpe; exact_mod_cast hpe⟩

/-! ## Polygons -/

theorem tilePolygon_eq (M : MathLib) (rings : List (List Pt)) (hne : [] ∉ rings) (pb : Box) (t : TileID) :
    ∃ b, tilePolygon M rings pb t = some b ∧ (b = true ↔
      (pb.N < (bounds M t).N ∧ pb.S > (bounds M t).S ∧ pb.E < (bounds M t).E ∧ pb.W > (bounds M t).W) ∨
      (∃ x ∈ [(bounds M t).W, (bounds M t).E], ∃ y ∈ [(bounds M t).N, (bounds M t).S], pip rings (x, y) = some true) ∨
      (∃ r ∈ rings, ∃ q ∈ r, (tile M q.1 q.2 t.Z).X = t.X ∧ (tile M q.1 q.2 t.Z).Y = t.Y)) := by
  have hp : ∀ p, ∃ b, pip rings p = some b := by
    intro p
    cases h : pip rings p with
    | none => exact absurd ((C89_panics_iff _ _).1 h) hne
    | some b => exact ⟨b, rfl⟩
  obtain ⟨b1, h1⟩ := hp ((bounds M t).W, (bounds M t).N)
  obtain ⟨b2, h2⟩ := hp ((bounds M t).W, (bounds M t).S)
  obtain ⟨b3, h3⟩ := hp ((bounds M t).E, (bounds M t).N)
  obtain ⟨b4, h4⟩ := hp ((bounds M t).E, (bounds M t).S)
  have hr : runPolygon M rings t = true ↔ ∃ r ∈ rings, ∃ q ∈ r, (tile M q.1 q.2 t.Z).X = t.X ∧ (tile M q.1 q.2 t.Z).Y = t.Y := by
    unfold runPolygon
    simp only [List.any_eq_true, Bool.and_eq_true, decide_eq_true_eq]
  unfold tilePolygon
  simp only [h1, h2, h3, h4, List.mem_cons, List.not_mem_nil, or_false, exists_eq_or_imp, exists_eq_left, Option.some.injEq]
  rw [← hr]
  by_cases hb : pb.N < (bounds M t).N ∧ pb.S > (bounds M t).S ∧ pb.E < (bounds M t).E ∧ pb.W > (bounds M t).W
  · rw [if_pos hb]; exact ⟨true, rfl, by simp [hb]⟩
  · rw [if_neg hb]
    simp only [hb, false_or]
    cases b1 <;> cases b2 <;> cases b3 <;> cases b4 <;> simp

theorem keep_mem (M : MathLib) (rings : List (List Pt)) (hne : [] ∉ rings) (pb : Box) (ts : List TileID) :
    ∃ r, keep M rings pb ts = some r ∧ r.Sublist ts ∧ ∀ t, t ∈ r ↔ t ∈ ts ∧ tilePolygon M rings pb t = some true := by
  induction ts with
  | nil => exact ⟨[], rfl, List.Sublist.refl _, by simp⟩
  | cons t ts ih =>
    obtain ⟨r, h1, h2, h3⟩ := ih
    obtain ⟨b, hb, -⟩ := tilePolygon_eq M rings hne pb t
    unfold keep
    rw [hb, h1]
    cases b with
    | false =>
      refine ⟨r, rfl, h2.cons _, fun u => ?_⟩
      rw [h3, List.mem_cons]
      constructor
      · rintro ⟨a, b⟩; exact ⟨Or.inr a, b⟩
      · rintro ⟨a | a, b⟩
        · rw [a, hb] at b; cases b
        · exact ⟨a, b⟩
    | true =>
      refine ⟨t :: r, rfl, h2.cons_cons _, fun u => ?_⟩
      rw [List.mem_cons, h3, List.mem_cons]
      constructor
      · rintro (a | ⟨a, b⟩)
        · exact ⟨Or.inl a, by rw [a]; exact hb⟩
        · exact ⟨Or.inr a, b⟩
      · rintro ⟨a | a, b⟩
        · exact Or.inl a
        · exact Or.inr ⟨a, b⟩

/-- **C90** In float64 `GetTilesPolygon` returns, without repeats, exactly the tiles of the zoom in the range of the box of the
outer ring that hold the box in their inside, have a corner in the polygon (by `Pip`), or hold a vertex. -/
theorem C90_polygon (M : MathLib) (outer : List Pt) (holes : List (List Pt)) (zoom : Nat) (hne : [] ∉ outer :: holes) :
    ∃ r, getTilesPolygon M (outer :: holes) zoom = some r ∧ r.Nodup ∧ ∀ t : TileID, t ∈ r ↔
      t.Z = zoom ∧
      (let b := boundingBoxPoints outer
       (t.X = (tile M b.W b.N zoom).X ∨ ((tile M b.W b.N zoom).X ≤ t.X ∧ t.X ≤ (tile M b.E b.S zoom).X)) ∧
       (t.Y = (tile M b.W b.N zoom).Y ∨ ((tile M b.W b.N zoom).Y ≤ t.Y ∧ t.Y ≤ (tile M b.E b.S zoom).Y)) ∧
       ((b.N < (bounds M t).N ∧ b.S > (bounds M t).S ∧ b.E < (bounds M t).E ∧ b.W > (bounds M t).W) ∨
        (∃ x ∈ [(bounds M t).W, (bounds M t).E], ∃ y ∈ [(bounds M t).N, (bounds M t).S], pip (outer :: holes) (x, y) = some true) ∨
        (∃ ring ∈ outer :: holes, ∃ q ∈ ring, (tile M q.1 q.2 zoom).X = t.X ∧ (tile M q.1 q.2 zoom).Y = t.Y))) := by
  unfold getTilesPolygon
  simp only
  obtain ⟨r, h1, h2, h3⟩ := keep_mem M (outer :: holes) hne (boundingBoxPoints outer)
    ((getDif (tile M (boundingBoxPoints outer).W (boundingBoxPoints outer).N zoom).X (tile M (boundingBoxPoints outer).E (boundingBoxPoints outer).S zoom).X).flatMap
      fun x => (getDif (tile M (boundingBoxPoints outer).W (boundingBoxPoints outer).N zoom).Y (tile M (boundingBoxPoints outer).E (boundingBoxPoints outer).S zoom).Y).map
        fun y => ⟨x, y, zoom⟩)
  refine ⟨r, h1, h2.nodup (candidates_nodup _ _ _ (getDif_nodup _ _) (getDif_nodup _ _)), fun t => ?_⟩
  rw [h3]
  obtain ⟨b, hb, hb2⟩ := tilePolygon_eq M (outer :: holes) hne (boundingBoxPoints outer) t
  rw [hb, Option.some.injEq, hb2]
  simp only [List.mem_flatMap, List.mem_map, getDif_mem]
  constructor
  · rintro ⟨⟨x, hx, y, hy, rfl⟩, h⟩
    exact ⟨rfl, hx, hy, h⟩
  · rintro ⟨hz, hx, hy, h⟩
    refine ⟨⟨t.X, hx, t.Y, hy, by rw [← hz]⟩, ?_⟩
    rw [hz]; exact h

/-- **C90** The cover of a polygon with a closed outer ring has the tile of every vertex of that ring, if the latitudes of the
vertices are not within 2^-41 of the map's height of the edges of the rows. -/
theorem C90_polygon_vertices {M : MathLib} (hM : Accurate M) (a : Pt) (mid : List Pt) (holes : List (List Pt)) (zoom : Nat)
    (hz : zoom < 9223372036854775808) (h : ∀ p ∈ a :: mid, |p.1| ≤ 180 ∧ RowClear zoom p.2) (hne : [] ∉ holes) (r : List TileID)
    (hr : getTilesPolygon M ((a :: (mid ++ [a])) :: holes) zoom = some r) (q : Pt) (hq : q ∈ a :: mid) :
    tile M q.1 q.2 zoom ∈ r := by
  obtain ⟨r', e, -, hm⟩ := C90_polygon M (a :: (mid ++ [a])) holes zoom (by simp [hne])
  rw [hr, Option.some.injEq] at e
  rw [e, hm]
  have lat90 : ∀ p ∈ a :: mid, |p.2| ≤ 85 := by
    intro p hp
    have := (h p hp).2.1
    have e : ((|p.2| : ℚ) : ℝ) ≤ (85 : ℚ) := by push_cast; exact this
    exact_mod_cast e
  obtain ⟨hb, -, -, ⟨ps, hps, es⟩, ⟨pn, hpn, en⟩⟩ :=
    C90_box a mid (fun p hp => ⟨(h p hp).1, by linarith [lat90 p hp]⟩)
  have sup : q ∈ a :: (mid ++ [a]) := by
    simp only [List.mem_cons, List.mem_append, List.not_mem_nil, or_false] at hq ⊢
    tauto
  have hqb := hb q hq
  have rng : ∀ p ∈ a :: mid, (-90 : ℝ) < p.2 ∧ (p.2 : ℝ) < 90 := by
    intro p hp
    have := abs_le.mp (h p hp).2.1
    constructor <;> linarith
  refine ⟨tile_Z M _ _ _ hz, Or.inr ⟨?_, ?_⟩, Or.inr ⟨?_, ?_⟩, Or.inr (Or.inr ⟨_, List.mem_cons_self, q, sup, rfl, rfl⟩)⟩
  · exact col_mono M hqb.1 _ _ _
  · exact col_mono M hqb.2.1 _ _ _
  · rw [← en, row_exact hM (h pn hpn).2 _ 0, row_exact hM (h q hq).2 _ 0]
    exact Cover.tile_row_mono (rng q hq).1 (by rw [en]; exact_mod_cast hqb.2.2.2) (rng pn hpn).2 _ _ _
  · rw [← es, row_exact hM (h ps hps).2 _ 0, row_exact hM (h q hq).2 _ 0]
    exact Cover.tile_row_mono (rng ps hps).1 (by rw [es]; exact_mod_cast hqb.2.2.1) (rng q hq).2 _ _ _

/-- `q` is within 2·10^-12 degrees of the corner of the tile at its west or east and north or south edge. -/
def NearCorner (t : TileID) (q : Pt) : Prop :=
  ∃ x ∈ [(Tid.bounds t).W, (Tid.bounds t).E], ∃ y ∈ [(Tid.bounds t).N, (Tid.bounds t).S],
    |(q.1 : ℝ) - x| ≤ 2 / 10 ^ 12 ∧ |(q.2 : ℝ) - y| ≤ 2 / 10 ^ 12

/-- No slanted edge passes within 2^-42 degrees (horizontally) of a point near a corner of the tile. -/
def CornersClear (rings : List (List Pt)) (t : TileID) : Prop :=
  ∀ q, NearCorner t q → ∀ c ∈ rings, ∀ e ∈ edges c, e.1.1 ≠ e.2.1 → FarFrom (1 / 2 ^ 42) q e.1 e.2

/-- **C90** Every tile of the cover either holds the polygon, or holds a vertex, or has a point of the polygon (in the exact sense)
within 2·10^-12 degrees of one of its corners. -/
theorem C90_polygon_sound {M : MathLib} (hM : Accurate M) (outer : List Pt) (holes : List (List Pt)) (zoom : Nat) (hz : zoom ≤ 50)
    (hs : ∀ c ∈ outer :: holes, c ≠ [] ∧ ∀ q ∈ c, |q.1| ≤ 180) (r : List TileID)
    (hr : getTilesPolygon M (outer :: holes) zoom = some r) (t : TileID) (ht : t ∈ r) (hg : t.InGrid)
    (hc : CornersClear (outer :: holes) t) :
    ((boundingBoxPoints outer).N < (bounds M t).N ∧ (boundingBoxPoints outer).S > (bounds M t).S ∧
      (boundingBoxPoints outer).E < (bounds M t).E ∧ (boundingBoxPoints outer).W > (bounds M t).W) ∨
    (∃ q, NearCorner t q ∧ Cover.pip (ringsR (outer :: holes)) (toR q) = some true) ∨
    (∃ ring ∈ outer :: holes, ∃ q ∈ ring, tile M q.1 q.2 zoom = t) := by
  have hne : [] ∉ outer :: holes := fun h => (hs _ h).1 rfl
  obtain ⟨r', e, -, hm⟩ := C90_polygon M outer holes zoom hne
  rw [hr, Option.some.injEq] at e
  rw [e, hm] at ht
  obtain ⟨hZ, -, -, h⟩ := ht
  rcases h with h | ⟨x, hx, y, hy, h⟩ | ⟨ring, h1, q, h2, h3, h4⟩
  · exact Or.inl h
  · right; left
    have hnear : NearCorner t (x, y) := by
      obtain ⟨b1, b2, b3, b4⟩ := C75_bounds hM t hg (by omega)
      simp only [List.mem_cons, List.not_mem_nil, or_false] at hx hy
      unfold NearCorner
      simp only [List.mem_cons, List.not_mem_nil, or_false, exists_eq_or_imp, exists_eq_left]
      rcases hx with rfl | rfl <;> rcases hy with rfl | rfl
      · exact Or.inl (Or.inl ⟨b1, b3⟩)
      · exact Or.inl (Or.inr ⟨b1, b4⟩)
      · exact Or.inr (Or.inl ⟨b2, b3⟩)
      · exact Or.inr (Or.inr ⟨b2, b4⟩)
    refine ⟨(x, y), hnear, ?_⟩
    rw [← C89_agrees _ _ (fun c hc => (hs c hc).2) (hc _ hnear)]
    exact h
  · right; right
    refine ⟨ring, h1, q, h2, ?_⟩
    have h5 := tile_Z M q.1 q.2 zoom (by omega)
    rcases htt : tile M q.1 q.2 zoom with ⟨X, Y, Z⟩
    rw [htt] at h3 h4 h5
    simp only at h3 h4 h5
    rw [h3, h4, h5, ← hZ]

/-- **C90** A tile one of whose corners is inside the polygon, together with all points within 2·10^-12 degrees of it, is in the
cover if it lies in the range of the box. -/
theorem C90_polygon_corner {M : MathLib} (hM : Accurate M) (outer : List Pt) (holes : List (List Pt)) (zoom : Nat) (hz : zoom ≤ 50)
    (hs : ∀ c ∈ outer :: holes, c ≠ [] ∧ ∀ q ∈ c, |q.1| ≤ 180) (r : List TileID)
    (hr : getTilesPolygon M (outer :: holes) zoom = some r) (t : TileID) (hg : t.InGrid) (hZ : t.Z = zoom)
    (hc : CornersClear (outer :: holes) t)
    (hx : (tile M (boundingBoxPoints outer).W (boundingBoxPoints outer).N zoom).X ≤ t.X ∧
      t.X ≤ (tile M (boundingBoxPoints outer).E (boundingBoxPoints outer).S zoom).X)
    (hy : (tile M (boundingBoxPoints outer).W (boundingBoxPoints outer).N zoom).Y ≤ t.Y ∧
      t.Y ≤ (tile M (boundingBoxPoints outer).E (boundingBoxPoints outer).S zoom).Y)
    (x y : ℝ) (hx' : x = (Tid.bounds t).W ∨ x = (Tid.bounds t).E) (hy' : y = (Tid.bounds t).N ∨ y = (Tid.bounds t).S)
    (hin : ∀ q : Pt, |(q.1 : ℝ) - x| ≤ 2 / 10 ^ 12 → |(q.2 : ℝ) - y| ≤ 2 / 10 ^ 12 →
      Cover.pip (ringsR (outer :: holes)) (toR q) = some true) : t ∈ r := by
  have hne : [] ∉ outer :: holes := fun h => (hs _ h).1 rfl
  obtain ⟨r', e, -, hm⟩ := C90_polygon M outer holes zoom hne
  rw [hr, Option.some.injEq] at e
  rw [e, hm]
  refine ⟨hZ, Or.inr hx, Or.inr hy, Or.inr (Or.inl ?_)⟩
  obtain ⟨b1, b2, b3, b4⟩ := C75_bounds hM t hg (by omega)
  have key : ∀ q : Pt, q.1 ∈ [(bounds M t).W, (bounds M t).E] → q.2 ∈ [(bounds M t).N, (bounds M t).S] →
      |(q.1 : ℝ) - x| ≤ 2 / 10 ^ 12 → |(q.2 : ℝ) - y| ≤ 2 / 10 ^ 12 →
      ∃ x ∈ [(bounds M t).W, (bounds M t).E], ∃ y ∈ [(bounds M t).N, (bounds M t).S], pip (outer :: holes) (x, y) = some true := by
    intro q m1 m2 d1 d2
    refine ⟨q.1, m1, q.2, m2, ?_⟩
    rw [C89_agrees _ _ (fun c hc => (hs c hc).2)]
    · exact hin q d1 d2
    · refine hc _ ⟨x, ?_, y, ?_, d1, d2⟩
      · rcases hx' with rfl | rfl <;> simp
      · rcases hy' with rfl | rfl <;> simp
  rcases hx' with rfl | rfl <;> rcases hy' with rfl | rfl
  · exact key ((bounds M t).W, (bounds M t).N) (by simp) (by simp) b1 b3
  · exact key ((bounds M t).W, (bounds M t).S) (by simp) (by simp) b1 b4
  · exact key ((bounds M t).E, (bounds M t).N) (by simp) (by simp) b2 b3
  · exact key ((bounds M t).E, (bounds M t).S) (by simp) (by simp) b2 b4

/-! ## Lines -/

/-- the gate of a turn: the segment is longer than one tile in longitude or latitude, as computed -/
def Long (dx dy : ℚ) (a b : Pt) : Prop := |rnd (b.1 - a.1)| > dx ∨ |rnd (b.2 - a.2)| > dy

theorem lineStep_mem (M : MathLib) (ord : List TileID → List TileID) (ho : ∀ l, (ord l).Perm l) (dx dy : ℚ) (zoom : Nat) (old pt : Pt)
    (tiles : List TileID) (t : TileID) : t ∈ lineStep M ord dx dy zoom old tiles pt ↔
      t ∈ tiles ∨ (Long dx dy old pt ∧ t ∈ betweenTiles M old pt zoom) ∨ t = tile M pt.1 pt.2 zoom := by
  unfold lineStep
  simp only
  rw [mem_addTile]
  by_cases h : Long dx dy old pt
  · have h' : |rnd (pt.1 - old.1)| > dx ∨ |rnd (pt.2 - old.2)| > dy := h
    rw [if_pos h', mem_fold, (ho _).mem_iff]
    tauto
  · have h' : ¬ (|rnd (pt.1 - old.1)| > dx ∨ |rnd (pt.2 - old.2)| > dy) := h
    rw [if_neg h']; tauto

theorem lineLoop_mem (M : MathLib) (ord : Nat → List TileID → List TileID) (ho : ∀ n l, (ord n l).Perm l) (dx dy : ℚ) (zoom : Nat)
    (pts : List Pt) (n : Nat) (old : Pt) (tiles : List TileID) (t : TileID) :
    t ∈ lineLoop M ord dx dy zoom n old tiles pts ↔ t ∈ tiles ∨ (∃ q ∈ pts, t = tile M q.1 q.2 zoom) ∨
      ∃ s ∈ (old :: pts).zip pts, Long dx dy s.1 s.2 ∧ t ∈ betweenTiles M s.1 s.2 zoom := by
  induction pts generalizing n old tiles with
  | nil => simp [lineLoop]
  | cons p pts ih =>
    simp only [lineLoop]
    rw [ih, lineStep_mem M _ (ho n)]
    simp only [List.zip_cons_cons, List.mem_cons, exists_eq_or_imp]
    generalize (∃ q ∈ pts, t = tile M q.1 q.2 zoom) = A
    generalize (∃ s ∈ (p :: pts).zip pts, Long dx dy s.1 s.2 ∧ t ∈ betweenTiles M s.1 s.2 zoom) = B
    tauto

theorem lineLoop_nodup (M : MathLib) (ord : Nat → List TileID → List TileID) (dx dy : ℚ) (zoom : Nat)
    (pts : List Pt) (n : Nat) (old : Pt) (tiles : List TileID) (h : tiles.Nodup) :
    (lineLoop M ord dx dy zoom n old tiles pts).Nodup := by
  induction pts generalizing n old tiles with
  | nil => exact h
  | cons p pts ih =>
    unfold lineLoop
    apply ih
    unfold lineStep
    simp only
    apply nodup_addTile
    split
    · exact nodup_fold _ _ h
    · exact h

theorem lineLoop_head (M : MathLib) (ord : Nat → List TileID → List TileID) (dx dy : ℚ) (zoom : Nat)
    (pts : List Pt) (n : Nat) (old : Pt) (tiles : List TileID) (f : TileID) (h : tiles.head? = some f) :
    (lineLoop M ord dx dy zoom n old tiles pts).head? = some f := by
  induction pts generalizing n old tiles with
  | nil => exact h
  | cons p pts ih =>
    unfold lineLoop
    apply ih
    unfold lineStep
    simp only
    apply head_addTile
    split
    · exact head_fold _ _ _ h
    · exact h

theorem betweenTiles_mem (M : MathLib) (a b : Pt) (zoom : Nat) (t : TileID) : t ∈ betweenTiles M a b zoom ↔
    t = tile M a.1 a.2 zoom ∨ t = tile M b.1 b.2 zoom ∨
    (¬ ((tile M a.1 a.2 zoom).X = (tile M b.1 b.2 zoom).X ∧ (tile M a.1 a.2 zoom).Y = (tile M b.1 b.2 zoom).Y) ∧
    ((∃ v ∈ produceVals M (fillVals (tile M a.1 a.2 zoom).X (tile M b.1 b.2 zoom).X) (tile M a.1 a.2 zoom).Y true zoom,
      t = tile M (interpolate a b v false).1 (interpolate a b v false).2 zoom) ∨
     (∃ v ∈ produceVals M (fillVals (tile M a.1 a.2 zoom).Y (tile M b.1 b.2 zoom).Y) (tile M a.1 a.2 zoom).X false zoom,
      t = tile M (interpolate a b v true).1 (interpolate a b v true).2 zoom))) := by
  unfold betweenTiles
  simp only
  split
  · rename_i h
    rw [List.mem_dedup]
    simp only [List.cons_append, List.mem_cons, List.mem_append, List.mem_map, h, not_false_eq_true, true_and, eq_comm]
  · rename_i h
    simp only [List.mem_cons, List.not_mem_nil, or_false, h, false_and, or_false]

/-- **C90** In float64, for every line with a point, every zoom and every order of the maps: no tile is repeated, all have the zoom,
the first is the tile of the first vertex and the tile of every vertex is there. -/
theorem C90_line (M : MathLib) (ord : Nat → List TileID → List TileID) (ho : ∀ n l, (ord n l).Perm l) (p : Pt) (rest : List Pt)
    (zoom : Nat) (hz : zoom < 9223372036854775808) :
    ∃ r, getTilesLine M ord (p :: rest) zoom = some r ∧ r.Nodup ∧ (∀ t ∈ r, t.Z = zoom) ∧
      r.head? = some (tile M p.1 p.2 zoom) ∧ ∀ q ∈ p :: rest, tile M q.1 q.2 zoom ∈ r := by
  refine ⟨_, rfl, lineLoop_nodup _ _ _ _ _ _ _ _ _ (by simp), ?_, lineLoop_head _ _ _ _ _ _ _ _ _ _ rfl, ?_⟩
  · intro t ht
    rw [lineLoop_mem _ _ ho] at ht
    rcases ht with ht | ⟨q, -, rfl⟩ | ⟨s, -, -, ht⟩
    · rw [List.mem_singleton.1 ht]; exact tile_Z _ _ _ _ hz
    · exact tile_Z _ _ _ _ hz
    · rw [betweenTiles_mem] at ht
      rcases ht with rfl | rfl | ⟨-, ⟨v, -, rfl⟩ | ⟨v, -, rfl⟩⟩ <;> exact tile_Z _ _ _ _ hz
  · intro q hq
    rw [lineLoop_mem _ _ ho]
    rcases List.mem_cons.1 hq with rfl | hq
    · left; simp
    · right; left; exact ⟨q, hq, rfl⟩

/-- **C90** The set of tiles does not depend on the order of the maps. -/
theorem C90_order_free (M : MathLib) (ord ord' : Nat → List TileID → List TileID) (ho : ∀ n l, (ord n l).Perm l)
    (ho' : ∀ n l, (ord' n l).Perm l) (line : List Pt) (zoom : Nat) (r r' : List TileID) (h : getTilesLine M ord line zoom = some r)
    (h' : getTilesLine M ord' line zoom = some r') (t : TileID) : t ∈ r ↔ t ∈ r' := by
  cases line with
  | nil => simp [getTilesLine] at h
  | cons p rest =>
    simp only [getTilesLine, Option.some.injEq] at h h'
    rw [← h, ← h', lineLoop_mem _ _ ho, lineLoop_mem _ _ ho']

/-! ### Lines along a parallel -/

theorem eps7_near : |((eps7 : ℚ) : ℝ) - 1 / 10 ^ 7| ≤ eps := by
  unfold eps7
  have h := rnd_near (q := 1 / 10000000) (x := 1 / 10 ^ 7) (d := 0) (B := 1) (by push_cast; norm_num) (by norm_num [abs_le])
  have he := eps_pos
  linarith

theorem lon_eq (v : ℤ) (Z : ℕ) : (Tid.ul ⟨v, 0, Z⟩).1 = (v : ℝ) / 2 ^ Z * 360 - 180 := rfl

/-- the value sampled just east of the west edge of column `v` -/
theorem sample_near (M : MathLib) {v : ℤ} {zoom : ℕ} (hz : zoom ≤ 31) (h0 : 0 ≤ v) (h1 : v ≤ 2 ^ zoom) (Y : ℤ) :
    |((rnd ((bounds M ⟨v, Y, zoom⟩).W + eps7) : ℚ) : ℝ) - ((v : ℝ) / 2 ^ zoom * 360 - 180 + 1 / 10 ^ 7)| ≤ 100 * eps := by
  have he := eps_pos
  have he1 : eps ≤ 1 / 1000000 := by unfold eps; norm_num
  obtain ⟨a, b⟩ := lon_near M (t := ⟨v, 0, zoom⟩) ⟨h0, h1, le_refl _, by positivity, by simp only; omega⟩
  rw [lon_eq] at a b
  have e : (bounds M ⟨v, Y, zoom⟩).W = (ul M ⟨v, 0, zoom⟩).1 := rfl
  rw [e]
  generalize (ul M ⟨v, 0, zoom⟩).1 = w at a
  generalize (v : ℝ) / 2 ^ zoom * 360 - 180 = x at a b
  have c := eps7_near
  generalize eps7 = q at c
  have := rnd_near (q := w + q) (x := x + 1 / 10 ^ 7) (d := 71 * eps) (B := 181) (by
    push_cast
    have e2 : (w : ℝ) + q - (x + 1 / 10 ^ 7) = (w - x) + (q - 1 / 10 ^ 7) := by ring
    rw [e2]
    exact (abs_add_le _ _).trans (by linarith)) (by
    obtain ⟨b1, b2⟩ := abs_le.mp b
    rw [abs_le]; constructor <;> norm_num <;> linarith)
  refine this.trans ?_
  nlinarith

theorem pow31 {zoom : ℕ} (hz : zoom ≤ 31) : (2 : ℝ) ^ zoom ≤ 2147483648 := by
  have : (2 : ℝ) ^ zoom ≤ 2 ^ 31 := pow_le_pow_right₀ (by norm_num) hz
  norm_num at this
  exact this

theorem sample_col (M : MathLib) {v : ℤ} {zoom : ℕ} (hz : zoom ≤ 31) (h0 : 0 ≤ v) (h1 : v ≤ 2 ^ zoom) (Y : ℤ) (y : ℚ) :
    (tile M (rnd ((bounds M ⟨v, Y, zoom⟩).W + eps7)) y zoom).X = v := by
  have he := eps_pos
  have hE : eps = 1 / 1125899906842624 := by unfold eps; norm_num
  have s := sample_near M hz h0 h1 Y
  generalize rnd ((bounds M ⟨v, Y, zoom⟩).W + eps7) = q at s
  have hn : (0 : ℝ) < 2 ^ zoom := by positivity
  have hp := pow31 hz
  have f0 : (0 : ℝ) ≤ (v : ℝ) / 2 ^ zoom := div_nonneg (by exact_mod_cast h0) hn.le
  have f1 : (v : ℝ) / 2 ^ zoom ≤ 1 := by rw [div_le_one hn]; exact_mod_cast h1
  obtain ⟨s1, s2⟩ := abs_le.mp s
  have c := col_near q (by rw [abs_le]; constructor <;> norm_num at s1 s2 <;> linarith) zoom
  have e2 : (2 : ℝ) ^ (zoom : ℤ) = 2 ^ zoom := zpow_natCast _ _
  rw [e2] at c
  unfold tile
  simp only
  apply floor_near (x := ((q : ℝ) + 180) / 360 * 2 ^ zoom) (d := 2 ^ zoom * (2 * eps)) (k := v)
  · exact lt_of_le_of_lt c (mul_lt_mul_of_pos_left (by linarith) hn)
  · have : (v : ℝ) / 2 ^ zoom + 2 * eps ≤ ((q : ℝ) + 180) / 360 := by
      rw [hE] at s1 ⊢
      norm_num at s1
      linarith
    calc (v : ℝ) + 2 ^ zoom * (2 * eps) = ((v : ℝ) / 2 ^ zoom + 2 * eps) * 2 ^ zoom := by field_simp
      _ ≤ _ := by gcongr
  · have h3 : ((q : ℝ) + 180) / 360 ≤ (v : ℝ) / 2 ^ zoom + 3 / 10 ^ 10 := by
      rw [hE] at s2
      norm_num at s2 ⊢
      linarith
    have h4 : ((q : ℝ) + 180) / 360 * 2 ^ zoom ≤ v + 3 / 10 ^ 10 * 2 ^ zoom := by
      calc ((q : ℝ) + 180) / 360 * 2 ^ zoom ≤ ((v : ℝ) / 2 ^ zoom + 3 / 10 ^ 10) * 2 ^ zoom := by gcongr
        _ = _ := by field_simp
    have h5 : (2 : ℝ) ^ zoom * (2 * eps) ≤ 1 / 10 := by rw [hE]; norm_num; linarith
    have h6 : 3 / 10 ^ 10 * (2 : ℝ) ^ zoom ≤ 9 / 10 := by norm_num; linarith
    linarith

/-- `Interpolate` between points of one latitude. -/
theorem interpolate_flat (a b : Pt) (v : ℚ) (h : b.2 = a.2) (hF : IsF a.2) : interpolate a b v false = (v, a.2) := by
  unfold interpolate
  simp only [Bool.false_eq_true, if_false, h, sub_self, rnd_zero, zero_div, mul_zero, add_zero]
  rw [hF.rnd_eq]

theorem flat_between (M : MathLib) (a b : Pt) (h : b.2 = a.2) (hF : IsF a.2) {zoom : ℕ} (hz : zoom ≤ 31)
    (ha : 0 ≤ (tile M a.1 a.2 zoom).X ∧ (tile M a.1 a.2 zoom).X ≤ 2 ^ zoom)
    (hb : 0 ≤ (tile M b.1 b.2 zoom).X ∧ (tile M b.1 b.2 zoom).X ≤ 2 ^ zoom) (v : ℤ)
    (hv : v ∈ fillVals (tile M a.1 a.2 zoom).X (tile M b.1 b.2 zoom).X) :
    ⟨v, (tile M a.1 a.2 zoom).Y, zoom⟩ ∈ betweenTiles M a b zoom := by
  have hv' := hv
  rw [fillVals_mem] at hv'
  rw [betweenTiles_mem]
  refine Or.inr (Or.inr ⟨fun e => by omega, Or.inl ⟨rnd ((bounds M ⟨v, (tile M a.1 a.2 zoom).Y, zoom⟩).W + eps7), ?_, ?_⟩⟩)
  · unfold produceVals
    rw [List.mem_flatMap]
    exact ⟨v, hv, by simp⟩
  · rw [interpolate_flat a b _ h hF]
    have c := sample_col M hz (v := v) (by omega) (by omega) (tile M a.1 a.2 zoom).Y a.2
    have z := tile_Z M (rnd ((bounds M ⟨v, (tile M a.1 a.2 zoom).Y, zoom⟩).W + eps7)) a.2 zoom (by omega)
    have y := tile_Y M (rnd ((bounds M ⟨v, (tile M a.1 a.2 zoom).Y, zoom⟩).W + eps7)) a.1 a.2 zoom
    simp only
    generalize rnd ((bounds M ⟨v, (tile M a.1 a.2 zoom).Y, zoom⟩).W + eps7) = q at *
    rcases htt : tile M q a.2 zoom with ⟨X, Y, Z⟩
    rw [htt] at c z y
    simp only at c z y
    rw [c, z, y]

/-- what the column of a longitude says of it -/
theorem col_bounds (M : MathLib) (x y : ℚ) (hx : |(x : ℝ)| ≤ 181) (zoom : ℕ) :
    ((tile M x y zoom).X : ℝ) / 2 ^ zoom - eps ≤ ((x : ℝ) + 180) / 360 ∧
    ((x : ℝ) + 180) / 360 < ((tile M x y zoom).X + 1 : ℝ) / 2 ^ zoom + eps := by
  have c := col_near x hx zoom
  have e2 : (2 : ℝ) ^ (zoom : ℤ) = 2 ^ zoom := zpow_natCast _ _
  rw [e2] at c
  have hn : (0 : ℝ) < 2 ^ zoom := by positivity
  unfold tile
  simp only
  generalize rnd (rnd (rnd (x + 180) / 360) * 2 ^ (zoom : ℤ)) = q at c
  have h1 : ((⌊q⌋ : ℤ) : ℝ) ≤ q := by
    have := Int.floor_le q
    exact_mod_cast this
  have h2 : (q : ℝ) < (⌊q⌋ : ℤ) + 1 := by
    have := Int.lt_floor_add_one q
    exact_mod_cast this
  obtain ⟨c1, c2⟩ := abs_le.mp c
  constructor
  · rw [sub_le_iff_le_add, div_le_iff₀ hn]
    nlinarith
  · rw [← sub_lt_iff_lt_add, lt_div_iff₀ hn]
    nlinarith

/-- columns of longitudes on the map -/
theorem col_range (M : MathLib) (x y : ℚ) (zoom : ℕ) (h1 : -180 ≤ x) (h2 : x ≤ 180) :
    0 ≤ (tile M x y zoom).X ∧ (tile M x y zoom).X ≤ 2 ^ zoom := by
  have a := col_mono M h1 y y zoom
  have b := col_mono M h2 y y zoom
  have e1 : (tile M (-180) y zoom).X = 0 := by
    unfold tile
    simp only [neg_add_cancel, rnd_zero, zero_div, zero_mul, Int.floor_zero]
  have e2 : (tile M 180 y zoom).X = 2 ^ zoom := by
    have r1 : rnd ((180 : ℚ) + 180) = 360 := by
      have := rnd_int 360 (by norm_num)
      norm_num at this ⊢
      exact this
    have r2 : rnd ((360 : ℚ) / 360) = 1 := by
      have := rnd_int 1 (by norm_num)
      norm_num at this ⊢
      exact this
    have r3 : rnd ((1 : ℚ) * 2 ^ (zoom : ℤ)) = 2 ^ (zoom : ℤ) := by
      have := rnd_exact 1 zoom (by norm_num)
      rw [pow2_eq] at this
      push_cast at this ⊢
      rw [this, one_mul]
    unfold tile
    simp only [r1, r2, r3]
    rw [zpow_natCast, show ((2 : ℚ) ^ zoom) = ((2 ^ zoom : ℤ) : ℚ) by push_cast; rfl, Int.floor_intCast]
  rw [e1] at a
  rw [e2] at b
  exact ⟨a, b⟩

theorem width_near (M : MathLib) {t : TileID} {zoom : ℕ} (hz : zoom ≤ 31) (ht : t.Z = zoom) (h0 : 0 ≤ t.X) (h1 : t.X < 2 ^ zoom) :
    |((rnd ((bounds M t).E - (bounds M t).W) : ℚ) : ℝ) - 360 / 2 ^ zoom| ≤ 200 * eps := by
  have he := eps_pos
  have he1 : eps ≤ 1 / 1000000 := by unfold eps; norm_num
  obtain ⟨X, Y, Z⟩ := t
  simp only at ht h0 h1
  subst ht
  obtain ⟨a, -⟩ := lon_near M (t := ⟨X, 0, Z⟩) ⟨h0, h1.le, le_refl _, by positivity, by simp only; omega⟩
  obtain ⟨b, -⟩ := lon_near M (t := ⟨X + 1, 0, Z⟩) ⟨by simp only; omega, by simp only; omega, le_refl _, by positivity, by simp only; omega⟩
  rw [lon_eq] at a b
  have hpz : (2 : ℤ) ^ Z ≤ 2 ^ 31 := pow_le_pow_right₀ (by norm_num) hz
  norm_num at hpz
  have e1 : i64 (X + 1) = X + 1 := Tid.i64_of_lt (by unfold IsI64; omega)
  have eW : (bounds M ⟨X, Y, Z⟩).W = (ul M ⟨X, 0, Z⟩).1 := rfl
  have eE : (bounds M ⟨X, Y, Z⟩).E = (ul M ⟨X + 1, 0, Z⟩).1 := by
    unfold bounds; simp only; rw [e1]; rfl
  rw [eW, eE]
  generalize (ul M ⟨X, 0, Z⟩).1 = w at *
  generalize (ul M ⟨X + 1, 0, Z⟩).1 = e at *
  have hn : (1 : ℝ) ≤ 2 ^ Z := one_le_pow₀ (by norm_num)
  have e3 : ((X + 1 : ℤ) : ℝ) / 2 ^ Z * 360 - 180 = (X : ℝ) / 2 ^ Z * 360 - 180 + 360 / 2 ^ Z := by push_cast; field_simp; ring
  rw [e3] at b
  have hw : |(360 : ℝ) / 2 ^ Z| ≤ 360 := by
    rw [abs_of_pos (by positivity), div_le_iff₀ (by positivity)]; linarith
  generalize (360 : ℝ) / 2 ^ Z = d at *
  generalize (X : ℝ) / 2 ^ Z * 360 - 180 = x at *
  have := rnd_near (q := e - w) (x := d) (d := 140 * eps) (B := 360) (by
    push_cast
    have e2 : (e : ℝ) - w - d = (e - (x + d)) - (w - x) := by ring
    rw [e2]
    exact (abs_sub _ _).trans (by linarith)) hw
  refine this.trans ?_
  nlinarith

/-- **C90** A segment along a parallel: the cover has the tile of every point of the segment, unless the length of the segment is
within 10^-11 degrees of the width of a tile. -/
theorem C90_flat_complete (M : MathLib) (ord : Nat → List TileID → List TileID) (ho : ∀ n l, (ord n l).Perm l) (p : Pt)
    (rest : List Pt) (zoom : Nat) (hz : zoom ≤ 31) (r : List TileID) (h : getTilesLine M ord (p :: rest) zoom = some r)
    (hp : -180 ≤ p.1 ∧ p.1 < 180) (hp' : (tile M p.1 p.2 zoom).X < 2 ^ zoom) (a b : Pt) (hab : (a, b) ∈ (p :: rest).zip rest)
    (ha : |a.1| ≤ 180) (hb : |b.1| ≤ 180) (hflat : b.2 = a.2) (hF : IsF a.2)
    (hlen : 1 / 10 ^ 11 ≤ |(|(b.1 : ℝ) - a.1| - 360 / 2 ^ zoom)|) (x : ℚ) (hx : min a.1 b.1 ≤ x ∧ x ≤ max a.1 b.1) :
    tile M x a.2 zoom ∈ r := by
  have hE : eps = 1 / 1125899906842624 := by unfold eps; norm_num
  have hmem := List.of_mem_zip hab
  obtain ⟨r', e', -, -, -, hv⟩ := C90_line M ord ho p rest zoom (by omega)
  rw [h, Option.some.injEq] at e'
  have hva : tile M a.1 a.2 zoom ∈ r := by rw [e']; exact hv a hmem.1
  have hvb : tile M b.1 b.2 zoom ∈ r := by rw [e']; exact hv b (List.mem_cons_of_mem _ hmem.2)
  obtain ⟨a1, a2⟩ := abs_le.mp ha
  obtain ⟨b1, b2⟩ := abs_le.mp hb
  have ra := col_range M a.1 a.2 zoom a1 a2
  have rb := col_range M b.1 b.2 zoom b1 b2
  have ext : ∀ s t : TileID, s.X = t.X → s.Y = t.Y → s.Z = t.Z → s = t := by
    rintro ⟨_, _, _⟩ ⟨_, _, _⟩ h1 h2 h3
    simp only at h1 h2 h3
    rw [h1, h2, h3]
  have zx := tile_Z M x a.2 zoom (by omega)
  have za := tile_Z M a.1 a.2 zoom (by omega)
  have zb := tile_Z M b.1 b.2 zoom (by omega)
  have yx := tile_Y M x a.1 a.2 zoom
  have yb : (tile M x a.2 zoom).Y = (tile M b.1 b.2 zoom).Y := by rw [hflat]; rfl
  by_cases hXa : (tile M x a.2 zoom).X = (tile M a.1 a.2 zoom).X
  · rw [ext _ _ hXa yx (zx.trans za.symm)]; exact hva
  by_cases hXb : (tile M x a.2 zoom).X = (tile M b.1 b.2 zoom).X
  · rw [ext _ _ hXb yb (zx.trans zb.symm)]; exact hvb
  -- strictly between the two columns
  have hfill : (tile M x a.2 zoom).X ∈ fillVals (tile M a.1 a.2 zoom).X (tile M b.1 b.2 zoom).X := by
    rw [fillVals_mem]
    rcases le_total a.1 b.1 with hle | hle
    · rw [min_eq_left hle, max_eq_right hle] at hx
      have := col_mono M hx.1 a.2 a.2 zoom
      have := col_mono M hx.2 a.2 b.2 zoom
      left; omega
    · rw [min_eq_right hle, max_eq_left hle] at hx
      have := col_mono M hx.1 b.2 a.2 zoom
      have := col_mono M hx.2 a.2 a.2 zoom
      right; omega
  have hbt := flat_between M a b hflat hF hz ra rb _ hfill
  have e0 : (⟨(tile M x a.2 zoom).X, (tile M a.1 a.2 zoom).Y, zoom⟩ : TileID) = tile M x a.2 zoom := ext _ _ rfl rfl zx.symm
  rw [e0] at hbt
  rw [fillVals_mem] at hfill
  simp only [getTilesLine, Option.some.injEq] at h
  rw [← h, lineLoop_mem _ _ ho]
  right; right
  refine ⟨(a, b), hab, Or.inl ?_, hbt⟩
  -- the gate
  have rp := col_range M p.1 p.2 zoom hp.1 hp.2.le
  have hw := width_near M hz (tile_Z M p.1 p.2 zoom (by omega)) rp.1 hp'
  have ca := col_bounds M a.1 a.2 (by rw [abs_le]; constructor <;> · have := (Rat.cast_le (K := ℝ)).2 a1; have := (Rat.cast_le (K := ℝ)).2 a2; push_cast at *; linarith) zoom
  have cb := col_bounds M b.1 b.2 (by rw [abs_le]; constructor <;> · have := (Rat.cast_le (K := ℝ)).2 b1; have := (Rat.cast_le (K := ℝ)).2 b2; push_cast at *; linarith) zoom
  have hn : (0 : ℝ) < 2 ^ zoom := by positivity
  have far : 360 / 2 ^ zoom - 720 * eps ≤ |(b.1 : ℝ) - a.1| := by
    rcases hfill with ⟨g1, g2⟩ | ⟨g1, g2⟩
    · have g : (((tile M a.1 a.2 zoom).X + 1 : ℝ) + 1) / 2 ^ zoom ≤ ((tile M b.1 b.2 zoom).X : ℝ) / 2 ^ zoom := by
        apply div_le_div_of_nonneg_right _ hn.le
        have : (tile M a.1 a.2 zoom).X + 1 + 1 ≤ (tile M b.1 b.2 zoom).X := by omega
        exact_mod_cast this
      rw [add_div] at g
      have : (360 : ℝ) / 2 ^ zoom = 360 * (1 / 2 ^ zoom) := by ring
      refine le_trans ?_ (le_abs_self _)
      linarith [ca.2, cb.1]
    · have g : (((tile M b.1 b.2 zoom).X + 1 : ℝ) + 1) / 2 ^ zoom ≤ ((tile M a.1 a.2 zoom).X : ℝ) / 2 ^ zoom := by
        apply div_le_div_of_nonneg_right _ hn.le
        have : (tile M b.1 b.2 zoom).X + 1 + 1 ≤ (tile M a.1 a.2 zoom).X := by omega
        exact_mod_cast this
      rw [add_div] at g
      have : (360 : ℝ) / 2 ^ zoom = 360 * (1 / 2 ^ zoom) := by ring
      refine le_trans ?_ (neg_le_abs _)
      linarith [cb.2, ca.1]
  have far2 : 360 / 2 ^ zoom + 1 / 10 ^ 11 ≤ |(b.1 : ℝ) - a.1| := by
    rcases le_or_gt 0 (|(b.1 : ℝ) - a.1| - 360 / 2 ^ zoom) with g | g
    · rw [abs_of_nonneg g] at hlen; linarith
    · rw [abs_of_neg g] at hlen
      exfalso
      rw [hE] at far
      norm_num at hlen far
      linarith
  have ab360 : |(b.1 : ℝ) - a.1| ≤ 360 := by
    have := (Rat.cast_le (K := ℝ)).2 a1
    have := (Rat.cast_le (K := ℝ)).2 a2
    have := (Rat.cast_le (K := ℝ)).2 b1
    have := (Rat.cast_le (K := ℝ)).2 b2
    push_cast at *
    rw [abs_le]; constructor <;> linarith
  have hr := rnd_near (q := b.1 - a.1) (x := (b.1 : ℝ) - a.1) (d := 0) (B := 360) (by push_cast; simp) ab360
  have fin : ((rnd ((bounds M (tile M p.1 p.2 zoom)).E - (bounds M (tile M p.1 p.2 zoom)).W) : ℚ) : ℝ) <
      ((|rnd (b.1 - a.1)| : ℚ) : ℝ) := by
    push_cast
    have t1 := (abs_le.mp hw).2
    have t2 := abs_sub_abs_le_abs_sub ((b.1 : ℝ) - a.1) ((rnd (b.1 - a.1) : ℚ) : ℝ)
    rw [abs_sub_comm] at hr
    rw [hE] at t1 hr
    norm_num at far2 hr t1
    linarith
  exact_mod_cast fin

/-- a case that meets the hypotheses: a line along the tenth parallel -/
theorem C90_flat_example (M : MathLib) (ord : Nat → List TileID → List TileID) (ho : ∀ n l, (ord n l).Perm l) :
    ∃ r, getTilesLine M ord [(-100, 10), (100, 10)] 2 = some r ∧ tile M 1 10 (2 : Nat) ∈ r ∧ (tile M 1 10 (2 : Nat)).X = 2 ∧
      tile M 1 10 (2 : Nat) ≠ tile M (-100) 10 (2 : Nat) ∧ tile M 1 10 (2 : Nat) ≠ tile M 100 10 (2 : Nat) := by
  obtain ⟨r, hr, -⟩ := C90_line M ord ho (-100, 10) [(100, 10)] 2 (by norm_num)
  have c1 : (tile M 1 10 (2 : Nat)).X = 2 := by
    show ⌊rnd (rnd (rnd (1 + 180) / 360) * 2 ^ ((2 : Nat) : Int))⌋ = 2
    decide +kernel
  have c2 : (tile M (-100) 10 (2 : Nat)).X = 0 := by
    show ⌊rnd (rnd (rnd (-100 + 180) / 360) * 2 ^ ((2 : Nat) : Int))⌋ = 0
    decide +kernel
  have c3 : (tile M 100 10 (2 : Nat)).X = 3 := by
    show ⌊rnd (rnd (rnd (100 + 180) / 360) * 2 ^ ((2 : Nat) : Int))⌋ = 3
    decide +kernel
  refine ⟨r, hr, ?_, c1, fun e => ?_, fun e => ?_⟩
  · have := C90_flat_complete M ord ho (-100, 10) [(100, 10)] 2 (by norm_num) r hr (by norm_num) (by rw [c2]; norm_num)
      (-100, 10) (100, 10) (by simp) (by norm_num [abs_le]) (by norm_num [abs_le]) rfl (isF_int 10 (by norm_num)) (by norm_num)
      1 (by norm_num)
    exact this
  · have := congrArg TileID.X e
    rw [c1, c2] at this
    omega
  · have := congrArg TileID.X e
    rw [c1, c3] at this
    omega

end Verif.CoverF
