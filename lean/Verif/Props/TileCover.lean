import Verif.Props.TilePip
import Verif.Props.TileGeo
import Mathlib.Data.List.Nodup
import Mathlib.Analysis.Real.Pi.Bounds

/-!
# C09, C12, C13: tile covers of lines, polygons and collections
-/
namespace Verif.Cover
open Verif.Tid Verif.Go

/-! ## Rows and columns are monotone -/

theorem tile_col_mono {x x' : ℝ} (h : x ≤ x') (y y' : ℝ) (z : Nat) : (tile x y z).X ≤ (tile x' y' z).X := by
  unfold tile
  simp only
  apply Int.floor_mono
  have : (0 : ℝ) < 2 ^ (z : Int) := by positivity
  gcongr

theorem tile_row_mono {y y' : ℝ} (h1 : -90 < y) (h : y ≤ y') (h2 : y' < 90) (x x' : ℝ) (z : Nat) :
    (tile x' y' z).Y ≤ (tile x y z).Y := by
  rw [tile_Y_eq (by linarith) h2, tile_Y_eq h1 (by linarith)]
  simp only
  apply Int.floor_mono
  have hn : (0 : ℝ) < 2 ^ (z : Int) := by positivity
  apply mul_le_mul_of_nonneg_right _ hn.le
  unfold rowf
  have hpi := Real.pi_pos
  have hm : Real.tan (y * (Real.pi / 180)) ≤ Real.tan (y' * (Real.pi / 180)) := by
    rcases eq_or_lt_of_le h with e | l
    · rw [e]
    · exact (Real.tan_lt_tan_of_lt_of_lt_pi_div_two (by nlinarith) (by nlinarith) (by nlinarith)).le
  have := Real.arsinh_le_arsinh.2 hm
  have : Real.arsinh (Real.tan (y * (Real.pi / 180))) / Real.pi ≤ Real.arsinh (Real.tan (y' * (Real.pi / 180))) / Real.pi := by
    gcongr
  linarith

theorem tile_Z (x y : ℝ) (z : Nat) (hz : z < 9223372036854775808) : (tile x y z).Z = z := by
  unfold tile u64
  simp only
  omega

/-! ## C12 -/

/-- the answer of `TilePolygon` when no ring is empty -/
theorem tilePolygon_eq (rings : List (List Pt)) (hne : [] ∉ rings) (pb : Box) (t : TileID) :
    ∃ b, tilePolygon rings pb t = some b ∧ (b = true ↔
      (pb.N < (bounds t).N ∧ pb.S > (bounds t).S ∧ pb.E < (bounds t).E ∧ pb.W > (bounds t).W) ∨
      (∃ x ∈ [(bounds t).W, (bounds t).E], ∃ y ∈ [(bounds t).N, (bounds t).S], pip rings (x, y) = some true) ∨
      (∃ r ∈ rings, ∃ q ∈ r, (tile q.1 q.2 t.Z).X = t.X ∧ (tile q.1 q.2 t.Z).Y = t.Y)) := by
  have hp : ∀ p, ∃ b, pip rings p = some b := by
    intro p
    cases h : pip rings p with
    | none => exact absurd ((C11_panics_iff rings p).1 h) hne
    | some b => exact ⟨b, rfl⟩
  obtain ⟨b1, h1⟩ := hp ((bounds t).W, (bounds t).N)
  obtain ⟨b2, h2⟩ := hp ((bounds t).W, (bounds t).S)
  obtain ⟨b3, h3⟩ := hp ((bounds t).E, (bounds t).N)
  obtain ⟨b4, h4⟩ := hp ((bounds t).E, (bounds t).S)
  have hr : runPolygon rings t = true ↔ ∃ r ∈ rings, ∃ q ∈ r, (tile q.1 q.2 t.Z).X = t.X ∧ (tile q.1 q.2 t.Z).Y = t.Y := by
    unfold runPolygon
    simp only [List.any_eq_true, Bool.and_eq_true, decide_eq_true_eq]
  unfold tilePolygon
  simp only [h1, h2, h3, h4, List.mem_cons, List.not_mem_nil, or_false, exists_eq_or_imp, exists_eq_left, Option.some.injEq]
  rw [← hr]
  by_cases hb : pb.N < (bounds t).N ∧ pb.S > (bounds t).S ∧ pb.E < (bounds t).E ∧ pb.W > (bounds t).W
  · rw [if_pos hb]; exact ⟨true, rfl, by simp [hb]⟩
  · rw [if_neg hb]
    simp only [hb, false_or]
    cases b1 <;> cases b2 <;> cases b3 <;> cases b4 <;> simp

theorem keep_mem (rings : List (List Pt)) (hne : [] ∉ rings) (pb : Box) (ts : List TileID) :
    ∃ r, keep rings pb ts = some r ∧ r.Sublist ts ∧ ∀ t, t ∈ r ↔ t ∈ ts ∧ tilePolygon rings pb t = some true := by
  induction ts with
  | nil => exact ⟨[], rfl, List.Sublist.refl _, by simp⟩
  | cons t ts ih =>
    obtain ⟨r, h1, h2, h3⟩ := ih
    obtain ⟨b, hb, -⟩ := tilePolygon_eq rings hne pb t
    unfold keep
    rw [hb, h1]
    cases b with
    | false =>
      refine ⟨r, rfl, h2.cons _, fun u => ?_⟩
      rw [h3, List.mem_cons]
      constructor
      · rintro ⟨a, b⟩; exact ⟨Or.inr a, b⟩
      · rintro ⟨a | a, b⟩
        · rw [a, hb] at b; cases b
        · exact ⟨a, b⟩
    | true =>
      refine ⟨t :: r, rfl, h2.cons_cons _, fun u => ?_⟩
      rw [List.mem_cons, h3, List.mem_cons]
      constructor
      · rintro (a | ⟨a, b⟩)
        · exact ⟨Or.inl a, by rw [a]; exact hb⟩
        · exact ⟨Or.inr a, b⟩
      · rintro ⟨a | a, b⟩
        · exact Or.inl a
        · exact Or.inr ⟨a, b⟩

theorem getDif_mem (a b x : Int) : x ∈ getDif a b ↔ x = a ∨ (a ≤ x ∧ x ≤ b) := by
  unfold getDif
  simp only [List.mem_cons, List.mem_map, List.mem_range]
  constructor
  · rintro (h | ⟨k, hk, e⟩)
    · exact Or.inl h
    · right; omega
  · rintro (h | ⟨h1, h2⟩)
    · exact Or.inl h
    · by_cases e : x = a
      · exact Or.inl e
      · right; exact ⟨(x - a - 1).toNat, by omega, by omega⟩

theorem getDif_nodup (a b : Int) : (getDif a b).Nodup := by
  unfold getDif
  rw [List.nodup_cons]
  constructor
  · simp only [List.mem_map, List.mem_range, not_exists, not_and]
    intro k _; omega
  · apply List.Nodup.map _ List.nodup_range
    intro i j h
    simp only at h
    omega

theorem candidates_nodup (xs ys : List Int) (z : Nat) (hx : xs.Nodup) (hy : ys.Nodup) :
    (xs.flatMap fun x => ys.map fun y => (⟨x, y, z⟩ : TileID)).Nodup := by
  rw [List.nodup_flatMap]
  constructor
  · intro x _
    apply hy.map
    intro a b h
    exact (TileID.mk.injEq .. ▸ h).2.1
  · apply hx.imp
    intro a b hab t h1 h2
    simp only [List.mem_map] at h1 h2
    obtain ⟨y, -, rfl⟩ := h1
    obtain ⟨y', -, e⟩ := h2
    exact hab (by rw [TileID.mk.injEq] at e; exact e.1.symm)

/-- C12: what the cover of a polygon is.  For rings without an empty one the call returns; the tiles are all different,
and they are exactly the tiles of the zoom in the range of the outer ring's box that hold the box in their inside, have
a corner in the polygon (by `Pip`), or hold a vertex. -/
theorem C12_exact (outer : List Pt) (holes : List (List Pt)) (zoom : Nat) (hne : [] ∉ outer :: holes) :
    ∃ r, getTilesPolygon (outer :: holes) zoom = some r ∧ r.Nodup ∧ ∀ t : TileID, t ∈ r ↔
      t.Z = zoom ∧
      (let b := boundingBoxPoints outer
       (t.X = (tile b.W b.N zoom).X ∨ ((tile b.W b.N zoom).X ≤ t.X ∧ t.X ≤ (tile b.E b.S zoom).X)) ∧
       (t.Y = (tile b.W b.N zoom).Y ∨ ((tile b.W b.N zoom).Y ≤ t.Y ∧ t.Y ≤ (tile b.E b.S zoom).Y)) ∧
       ((b.N < (bounds t).N ∧ b.S > (bounds t).S ∧ b.E < (bounds t).E ∧ b.W > (bounds t).W) ∨
        (∃ x ∈ [(bounds t).W, (bounds t).E], ∃ y ∈ [(bounds t).N, (bounds t).S], pip (outer :: holes) (x, y) = some true) ∨
        (∃ ring ∈ outer :: holes, ∃ q ∈ ring, (tile q.1 q.2 zoom).X = t.X ∧ (tile q.1 q.2 zoom).Y = t.Y))) := by
  unfold getTilesPolygon
  simp only
  obtain ⟨r, h1, h2, h3⟩ := keep_mem (outer :: holes) hne (boundingBoxPoints outer)
    ((getDif (tile (boundingBoxPoints outer).W (boundingBoxPoints outer).N zoom).X (tile (boundingBoxPoints outer).E (boundingBoxPoints outer).S zoom).X).flatMap
      fun x => (getDif (tile (boundingBoxPoints outer).W (boundingBoxPoints outer).N zoom).Y (tile (boundingBoxPoints outer).E (boundingBoxPoints outer).S zoom).Y).map
        fun y => ⟨x, y, zoom⟩)
  refine ⟨r, h1, h2.nodup (candidates_nodup _ _ _ (getDif_nodup _ _) (getDif_nodup _ _)), fun t => ?_⟩
  rw [h3]
  obtain ⟨b, hb, hb2⟩ := tilePolygon_eq (outer :: holes) hne (boundingBoxPoints outer) t
  rw [hb, Option.some.injEq, hb2]
  simp only [List.mem_flatMap, List.mem_map, getDif_mem]
  constructor
  · rintro ⟨⟨x, hx, y, hy, rfl⟩, h⟩
    exact ⟨rfl, hx, hy, h⟩
  · rintro ⟨hz, hx, hy, h⟩
    refine ⟨⟨t.X, hx, t.Y, hy, by rw [← hz]⟩, ?_⟩
    rw [hz]; exact h

/-- C12: the cover of a polygon with a closed outer ring has the tile of every vertex of that ring. -/
theorem C12_vertices (a : Pt) (mid : List Pt) (holes : List (List Pt)) (zoom : Nat) (hz : zoom < 9223372036854775808)
    (h : ∀ p ∈ a :: mid, -180 ≤ p.1 ∧ p.1 ≤ 180 ∧ -90 < p.2 ∧ p.2 < 90) (hne : [] ∉ holes) (r : List TileID)
    (hr : getTilesPolygon ((a :: (mid ++ [a])) :: holes) zoom = some r) (q : Pt) (hq : q ∈ a :: mid) :
    tile q.1 q.2 zoom ∈ r := by
  obtain ⟨r', e, -, hm⟩ := C12_exact (a :: (mid ++ [a])) holes zoom (by simp [hne])
  rw [hr, Option.some.injEq] at e
  rw [e, hm]
  obtain ⟨hb, ⟨pw, hpw, ew⟩, ⟨pe, hpe, ee⟩, ⟨ps, hps, es⟩, ⟨pn, hpn, en⟩⟩ :=
    C10_closed a mid (fun p hp => ⟨(h p hp).1, (h p hp).2.1, (h p hp).2.2.1.le, (h p hp).2.2.2.le⟩)
  have sub : ∀ p ∈ a :: (mid ++ [a]), p ∈ a :: mid := by
    intro p hp
    simp only [List.mem_cons, List.mem_append, List.not_mem_nil, or_false] at hp ⊢
    tauto
  have sup : q ∈ a :: (mid ++ [a]) := by
    simp only [List.mem_cons, List.mem_append, List.not_mem_nil, or_false] at hq ⊢
    tauto
  have hqb := hb q sup
  have hN : -90 < (boundingBoxPoints (a :: (mid ++ [a]))).N ∧ (boundingBoxPoints (a :: (mid ++ [a]))).N < 90 := by
    rw [← en]; exact (h pn (sub pn hpn)).2.2
  have hS : -90 < (boundingBoxPoints (a :: (mid ++ [a]))).S ∧ (boundingBoxPoints (a :: (mid ++ [a]))).S < 90 := by
    rw [← es]; exact (h ps (sub ps hps)).2.2
  refine ⟨tile_Z _ _ _ hz, Or.inr ⟨?_, ?_⟩, Or.inr ⟨?_, ?_⟩, Or.inr (Or.inr ⟨_, List.mem_cons_self, q, sup, rfl, rfl⟩)⟩
  · exact tile_col_mono hqb.1 _ _ _
  · exact tile_col_mono hqb.2.1 _ _ _
  · exact tile_row_mono (h q hq).2.2.1 hqb.2.2.2 hN.2 _ _ _
  · exact tile_row_mono hS.1 hqb.2.2.1 (h q hq).2.2.2 _ _ _

/-- C12: every tile of the cover lies in the range spanned by the tiles of the vertices of the closed outer ring. -/
theorem C12_in_vertex_range (a : Pt) (mid : List Pt) (holes : List (List Pt)) (zoom : Nat)
    (h : ∀ p ∈ a :: mid, -180 ≤ p.1 ∧ p.1 ≤ 180 ∧ -90 < p.2 ∧ p.2 < 90) (hne : [] ∉ holes) (r : List TileID)
    (hr : getTilesPolygon ((a :: (mid ++ [a])) :: holes) zoom = some r) (t : TileID) (ht : t ∈ r) :
    t.Z = zoom ∧ (∃ q ∈ a :: mid, (tile q.1 q.2 zoom).X ≤ t.X) ∧ (∃ q ∈ a :: mid, t.X ≤ (tile q.1 q.2 zoom).X) ∧
      (∃ q ∈ a :: mid, (tile q.1 q.2 zoom).Y ≤ t.Y) ∧ (∃ q ∈ a :: mid, t.Y ≤ (tile q.1 q.2 zoom).Y) := by
  obtain ⟨r', e, -, hm⟩ := C12_exact (a :: (mid ++ [a])) holes zoom (by simp [hne])
  rw [hr, Option.some.injEq] at e
  rw [e, hm] at ht
  obtain ⟨hb, ⟨pw, hpw, ew⟩, ⟨pe, hpe, ee⟩, ⟨ps, hps, es⟩, ⟨pn, hpn, en⟩⟩ :=
    C10_closed a mid (fun p hp => ⟨(h p hp).1, (h p hp).2.1, (h p hp).2.2.1.le, (h p hp).2.2.2.le⟩)
  have sub : ∀ p ∈ a :: (mid ++ [a]), p ∈ a :: mid := by
    intro p hp
    simp only [List.mem_cons, List.mem_append, List.not_mem_nil, or_false] at hp ⊢
    tauto
  obtain ⟨hz, hx, hy, -⟩ := ht
  have hx0 : (tile (boundingBoxPoints (a :: (mid ++ [a]))).W (boundingBoxPoints (a :: (mid ++ [a]))).N zoom).X ≤
      (tile (boundingBoxPoints (a :: (mid ++ [a]))).E (boundingBoxPoints (a :: (mid ++ [a]))).S zoom).X := by
    apply tile_col_mono
    have := hb pw hpw
    linarith
  have hy0 : (tile (boundingBoxPoints (a :: (mid ++ [a]))).W (boundingBoxPoints (a :: (mid ++ [a]))).N zoom).Y ≤
      (tile (boundingBoxPoints (a :: (mid ++ [a]))).E (boundingBoxPoints (a :: (mid ++ [a]))).S zoom).Y := by
    have h1 := (h ps (sub ps hps)).2.2.1
    have h2 := (h pn (sub pn hpn)).2.2.2
    have := hb pw hpw
    apply tile_row_mono <;> linarith
  have ewx : (tile pw.1 pw.2 zoom).X = (tile (boundingBoxPoints (a :: (mid ++ [a]))).W (boundingBoxPoints (a :: (mid ++ [a]))).N zoom).X := by
    unfold tile; simp only; rw [ew]
  have eex : (tile pe.1 pe.2 zoom).X = (tile (boundingBoxPoints (a :: (mid ++ [a]))).E (boundingBoxPoints (a :: (mid ++ [a]))).S zoom).X := by
    unfold tile; simp only; rw [ee]
  have eny : (tile pn.1 pn.2 zoom).Y = (tile (boundingBoxPoints (a :: (mid ++ [a]))).W (boundingBoxPoints (a :: (mid ++ [a]))).N zoom).Y := by
    unfold tile; simp only; rw [en]
  have esy : (tile ps.1 ps.2 zoom).Y = (tile (boundingBoxPoints (a :: (mid ++ [a]))).E (boundingBoxPoints (a :: (mid ++ [a]))).S zoom).Y := by
    unfold tile; simp only; rw [es]
  refine ⟨hz, ⟨pw, sub _ hpw, ?_⟩, ⟨pe, sub _ hpe, ?_⟩, ⟨pn, sub _ hpn, ?_⟩, ⟨ps, sub _ hps, ?_⟩⟩
  · rw [ewx]; rcases hx with e | e <;> omega
  · rw [eex]; rcases hx with e | e <;> omega
  · rw [eny]; rcases hy with e | e <;> omega
  · rw [esy]; rcases hy with e | e <;> omega

/-- C12: a polygon without rings panics. -/
theorem C12_no_rings (zoom : Nat) : getTilesPolygon [] zoom = none := rfl

/-! ### A tile crossed by the polygon is missed -/

/-- A thin rectangle along the tenth parallel. -/
def thinRect : List Pt := [(-100, 10), (100, 10), (100, 11), (-100, 11), (-100, 10)]

theorem arctan_sinh_half : (45 : ℝ) < 180 / Real.pi * Real.arctan (Real.sinh (Real.pi / 2)) := by
  have hpi := Real.pi_gt_three
  have h1 : (1 : ℝ) < Real.sinh (Real.pi / 2) := by
    have := Real.self_le_sinh_iff.2 (show (0 : ℝ) ≤ Real.pi / 2 by positivity)
    linarith
  have h2 := Real.arctan_strictMono h1
  rw [Real.arctan_one] at h2
  calc (45 : ℝ) = 180 / Real.pi * (Real.pi / 4) := by field_simp; norm_num
    _ < _ := by gcongr

theorem bounds_212 : bounds ⟨2, 1, 2⟩ = { W := 0, E := 90, N := 180 / Real.pi * Real.arctan (Real.sinh (Real.pi / 2)), S := 0 } := by
  unfold bounds ul
  have e1 : Real.pi * (1 - 2 * (((1 : Int) : ℝ)) / 2 ^ 2) = Real.pi / 2 := by norm_num; ring
  have e2 : Real.pi * (1 - 2 * (((1 + 1 : Int) : ℝ)) / 2 ^ 2) = 0 := by norm_num
  simp only [e1, e2, Real.sinh_zero, Real.arctan_zero, mul_zero]
  norm_num

/-- C12: the expected "every tile that meets the polygon" is false: the point (1, 10.5) is in the rectangle (by `Pip`) and in
tile 2/2/1, which the cover at zoom 2 does not have. -/
theorem C12_misses_tile : pip [thinRect] (1, 21 / 2) = some true ∧ tile 1 (21 / 2) (2 : Nat) = ⟨2, 1, 2⟩ ∧
    ∃ r, getTilesPolygon [thinRect] 2 = some r ∧ (⟨2, 1, 2⟩ : TileID) ∉ r := by
  have hpip : ∀ p, pip [thinRect] p = some (decide (-100 ≤ p.1 ∧ p.1 < 100 ∧ 10 ≤ p.2 ∧ p.2 < 11)) := fun p =>
    C11_rectangle (-100) 10 100 11 (by norm_num) (by norm_num) p
  have hlat := arctan_sinh_half
  refine ⟨?_, ?_, ?_⟩
  · rw [hpip]; norm_num
  · refine (C05_tile_iff_in_bounds _ _ 2 1 2 (by norm_num) (by norm_num) (by norm_num)).2 ?_
    rw [bounds_212]
    exact ⟨by norm_num, by norm_num, by norm_num, by simp only; linarith⟩
  · obtain ⟨r, h1, -, hm⟩ := C12_exact thinRect [] 2 (by simp [thinRect])
    refine ⟨r, h1, fun hin => ?_⟩
    have hv : ∀ q ∈ thinRect, (tile q.1 q.2 (2 : Nat)).X ≠ 2 := by
      have a1 : ⌊((-100 : ℝ) + 180) / 360 * (2 : ℝ) ^ ((2 : Nat) : Int)⌋ = 0 := by
        rw [Int.floor_eq_iff]; norm_num
      have a2 : ⌊((100 : ℝ) + 180) / 360 * (2 : ℝ) ^ ((2 : Nat) : Int)⌋ = 3 := by
        rw [Int.floor_eq_iff]; norm_num
      intro q hq
      simp only [thinRect, List.mem_cons, List.not_mem_nil, or_false] at hq
      unfold tile
      simp only
      rcases hq with rfl | rfl | rfl | rfl | rfl <;> simp only [a1, a2] <;> decide
    rw [hm] at hin
    obtain ⟨-, -, -, h⟩ := hin
    rw [bounds_212] at h
    have hbox : boundingBoxPoints thinRect = { W := -100, E := 100, S := 10, N := 11 } := by
      simp only [boundingBoxPoints, thinRect, List.foldl_cons, List.foldl_nil, boxStep]
      norm_num
    rcases h with h | ⟨x, -, y, hy, h⟩ | ⟨ring, hring, q, hq, h, -⟩
    · rw [hbox] at h
      obtain ⟨-, -, h, -⟩ := h
      norm_num at h
    · rw [hpip, Option.some.injEq, decide_eq_true_eq] at h
      simp only [List.mem_cons, List.not_mem_nil, or_false] at hy
      rcases hy with rfl | rfl
      · simp only at h; linarith
      · norm_num at h
    · simp only [List.mem_cons, List.not_mem_nil, or_false] at hring
      subst hring
      exact hv q hq h

/-! ## C13 -/

theorem fold_add (l acc : List TileID) :
    l.foldl addTile acc = acc ++ (l.filter fun t => decide (t ∉ acc)).eraseDups := by
  induction l generalizing acc with
  | nil => simp
  | cons a l ih =>
    rw [List.foldl_cons, ih]
    unfold addTile
    by_cases h : a ∈ acc
    · rw [if_pos h, List.filter_cons_of_neg (by simp [h])]
    · rw [if_neg h, List.filter_cons_of_pos (by simp [h]), List.eraseDups_cons, List.filter_filter, List.append_assoc,
        List.singleton_append]
      congr 4
      funext t
      simp only [List.mem_append, List.mem_singleton, not_or, Bool.decide_and]
      rw [Bool.and_comm]
      congr 1
      by_cases e : t = a <;> simp [e]

theorem fold_add_nil (l : List TileID) : l.foldl addTile [] = l.eraseDups := by
  rw [fold_add, List.nil_append]
  congr 1
  rw [List.filter_eq_self]
  simp

theorem nodup_addTile (tiles : List TileID) (t : TileID) (h : tiles.Nodup) : (addTile tiles t).Nodup := by
  unfold addTile
  split
  · exact h
  · rename_i hn
    rw [List.nodup_append]
    refine ⟨h, by simp, ?_⟩
    intro a ha b hb
    rw [List.mem_singleton] at hb
    subst hb
    intro e
    exact hn (e ▸ ha)

theorem nodup_fold (l tiles : List TileID) (h : tiles.Nodup) : (l.foldl addTile tiles).Nodup := by
  induction l generalizing tiles with
  | nil => exact h
  | cons a l ih => exact ih _ (nodup_addTile _ _ h)

theorem fold_add_nodup (l : List TileID) (h : l.Nodup) : l.foldl addTile [] = l := by
  have gen : ∀ (l acc : List TileID), (acc ++ l).Nodup → l.foldl addTile acc = acc ++ l := by
    intro l
    induction l with
    | nil => intro acc _; simp
    | cons a l ih =>
      intro acc h
      have ha : a ∉ acc := by
        intro hin
        rw [List.nodup_append] at h
        exact h.2.2 a hin a List.mem_cons_self rfl
      rw [List.foldl_cons]
      have e : addTile acc a = acc ++ [a] := by unfold addTile; rw [if_neg ha]
      rw [e, ih _ (by simpa using h)]
      simp
  simpa using gen l [] (by simpa using h)

theorem mergeParts_tail {α : Type} (cover : Nat → α → Option (List TileID)) (as : List α) (cs : List (List TileID)) (pos : Nat)
    (total : List TileID) (hpos : 0 < pos) (hl : cs.length = as.length)
    (h : ∀ i a c, as[i]? = some a → cs[i]? = some c → cover (pos + i) a = some c) :
    mergeParts cover pos total as = some (cs.flatten.foldl addTile total) := by
  induction as generalizing cs pos total with
  | nil =>
    have : cs = [] := List.eq_nil_of_length_eq_zero hl
    subst this; rfl
  | cons a as ih =>
    cases cs with
    | nil => simp at hl
    | cons c cs =>
      unfold mergeParts
      rw [show cover pos a = some c from h 0 a c rfl rfl]
      simp only
      rw [if_neg (by omega), ih cs (pos + 1) _ (by omega) (by simpa using hl)]
      · rw [List.flatten_cons, List.foldl_append]
      · intro i a' c' ha hc
        have := h (i + 1) a' c' (by simpa using ha) (by simpa using hc)
        rwa [show pos + 1 + i = pos + (i + 1) by omega]

theorem mergeParts_eq {α : Type} (cover : Nat → α → Option (List TileID)) (as : List α) (cs : List (List TileID))
    (hl : cs.length = as.length) (h : ∀ i a c, as[i]? = some a → cs[i]? = some c → cover i a = some c)
    (hn : ∀ c ∈ cs, c.Nodup) : mergeParts cover 0 [] as = some cs.flatten.eraseDups := by
  cases as with
  | nil =>
    have : cs = [] := List.eq_nil_of_length_eq_zero hl
    subst this; rfl
  | cons a as =>
    cases cs with
    | nil => simp at hl
    | cons c cs =>
      unfold mergeParts
      rw [show cover 0 a = some c from h 0 a c rfl rfl]
      simp only [if_true]
      rw [mergeParts_tail cover as cs 1 c (by omega) (by simpa using hl)]
      · rw [← fold_add_nil, List.flatten_cons, List.foldl_append, fold_add_nodup c (hn c List.mem_cons_self)]
      · intro i a' c' ha hc
        have := h (i + 1) a' c' (by simpa using ha) (by simpa using hc)
        rwa [show 0 + 1 + i = i + 1 by omega]

theorem mergeParts_panics {α : Type} (cover : Nat → α → Option (List TileID)) (as : List α) (pos : Nat) (total : List TileID)
    (i : Nat) (a : α) (ha : as[i]? = some a) (h : cover (pos + i) a = none) : mergeParts cover pos total as = none := by
  induction as generalizing pos total i with
  | nil => simp at ha
  | cons x as ih =>
    unfold mergeParts
    cases i with
    | zero =>
      simp only [List.getElem?_cons_zero, Option.some.injEq] at ha
      subst ha
      rw [show cover pos x = none from h]
    | succ i =>
      simp only [List.getElem?_cons_succ] at ha
      have h' : cover (pos + 1 + i) a = none := by rwa [show pos + 1 + i = pos + (i + 1) by omega]
      cases cover pos x with
      | none => rfl
      | some c =>
        simp only
        split
        · exact ih _ _ _ ha h'
        · exact ih _ _ _ ha h'

/-! ## C09 -/

theorem mem_addTile (tiles : List TileID) (t u : TileID) : u ∈ addTile tiles t ↔ u ∈ tiles ∨ u = t := by
  unfold addTile
  split
  · rename_i h
    constructor
    · exact Or.inl
    · rintro (h' | rfl)
      · exact h'
      · exact h
  · simp

theorem mem_fold (l tiles : List TileID) (u : TileID) : u ∈ l.foldl addTile tiles ↔ u ∈ tiles ∨ u ∈ l := by
  induction l generalizing tiles with
  | nil => simp
  | cons a l ih => rw [List.foldl_cons, ih, mem_addTile, List.mem_cons]; tauto

/-- the segment is longer than one tile in longitude or latitude -/
def Long (dx dy : ℝ) (a b : Pt) : Prop := |b.1 - a.1| > dx ∨ |b.2 - a.2| > dy

theorem lineStep_mem (ord : List TileID → List TileID) (ho : ∀ l, (ord l).Perm l) (dx dy : ℝ) (zoom : Nat) (old pt : Pt)
    (tiles : List TileID) (t : TileID) : t ∈ lineStep ord dx dy zoom old tiles pt ↔
      t ∈ tiles ∨ (Long dx dy old pt ∧ t ∈ betweenTiles old pt zoom) ∨ t = tile pt.1 pt.2 zoom := by
  unfold lineStep
  simp only
  rw [mem_addTile]
  by_cases h : Long dx dy old pt
  · have h' : |pt.1 - old.1| > dx ∨ |pt.2 - old.2| > dy := h
    rw [if_pos h', mem_fold, (ho _).mem_iff]
    simp only [h, true_and]
    tauto
  · have h' : ¬ (|pt.1 - old.1| > dx ∨ |pt.2 - old.2| > dy) := h
    rw [if_neg h']
    simp only [h, false_and, false_or]

theorem lineLoop_mem (ord : Nat → List TileID → List TileID) (ho : ∀ n l, (ord n l).Perm l) (dx dy : ℝ) (zoom : Nat)
    (pts : List Pt) (n : Nat) (old : Pt) (tiles : List TileID) (t : TileID) :
    t ∈ lineLoop ord dx dy zoom n old tiles pts ↔ t ∈ tiles ∨ (∃ q ∈ pts, t = tile q.1 q.2 zoom) ∨
      ∃ s ∈ (old :: pts).zip pts, Long dx dy s.1 s.2 ∧ t ∈ betweenTiles s.1 s.2 zoom := by
  induction pts generalizing n old tiles with
  | nil => simp [lineLoop]
  | cons p pts ih =>
    unfold lineLoop
    rw [ih, lineStep_mem _ (ho n)]
    simp only [List.zip_cons_cons, List.mem_cons, exists_eq_or_imp]
    generalize (∃ q ∈ pts, t = tile q.1 q.2 zoom) = A
    generalize (∃ s ∈ (p :: pts).zip pts, Long dx dy s.1 s.2 ∧ t ∈ betweenTiles s.1 s.2 zoom) = B
    tauto

theorem lineLoop_nodup (ord : Nat → List TileID → List TileID) (dx dy : ℝ) (zoom : Nat)
    (pts : List Pt) (n : Nat) (old : Pt) (tiles : List TileID) (h : tiles.Nodup) :
    (lineLoop ord dx dy zoom n old tiles pts).Nodup := by
  induction pts generalizing n old tiles with
  | nil => exact h
  | cons p pts ih =>
    unfold lineLoop
    apply ih
    unfold lineStep
    simp only
    apply nodup_addTile
    split
    · exact nodup_fold _ _ h
    · exact h

theorem head_addTile (tiles : List TileID) (f t : TileID) (h : tiles.head? = some f) : (addTile tiles t).head? = some f := by
  unfold addTile
  split
  · exact h
  · cases tiles with
    | nil => simp at h
    | cons x xs => simpa using h

theorem head_fold (l tiles : List TileID) (f : TileID) (h : tiles.head? = some f) : (l.foldl addTile tiles).head? = some f := by
  induction l generalizing tiles with
  | nil => exact h
  | cons a l ih => exact ih _ (head_addTile _ _ _ h)

theorem lineLoop_head (ord : Nat → List TileID → List TileID) (dx dy : ℝ) (zoom : Nat)
    (pts : List Pt) (n : Nat) (old : Pt) (tiles : List TileID) (f : TileID) (h : tiles.head? = some f) :
    (lineLoop ord dx dy zoom n old tiles pts).head? = some f := by
  induction pts generalizing n old tiles with
  | nil => exact h
  | cons p pts ih =>
    unfold lineLoop
    apply ih
    unfold lineStep
    simp only
    apply head_addTile
    split
    · exact head_fold _ _ _ h
    · exact h

theorem betweenTiles_cases (a b : Pt) (zoom : Nat) (t : TileID) (h : t ∈ betweenTiles a b zoom) :
    ∃ q : Pt, t = tile q.1 q.2 zoom := by
  unfold betweenTiles at h
  simp only at h
  split at h
  · rw [List.mem_dedup] at h
    simp only [List.cons_append, List.mem_cons, List.mem_append, List.mem_map] at h
    rcases h with h | h | ⟨v, -, h⟩ | ⟨v, -, h⟩
    · exact ⟨a, h⟩
    · exact ⟨b, h⟩
    · exact ⟨_, h.symm⟩
    · exact ⟨_, h.symm⟩
  · simp only [List.mem_cons, List.not_mem_nil, or_false] at h
    rcases h with h | h
    · exact ⟨a, h⟩
    · exact ⟨b, h⟩

/-- C09: for every line with a point, every zoom and every order of the maps the call returns; no tile is repeated, all
have the zoom, the first is the tile of the first vertex and the tile of every vertex is there. -/
theorem C09_nodup_zoom_vertices (ord : Nat → List TileID → List TileID) (ho : ∀ n l, (ord n l).Perm l) (p : Pt) (rest : List Pt)
    (zoom : Nat) (hz : zoom < 9223372036854775808) :
    ∃ r, getTilesLine ord (p :: rest) zoom = some r ∧ r.Nodup ∧ (∀ t ∈ r, t.Z = zoom) ∧
      r.head? = some (tile p.1 p.2 zoom) ∧ ∀ q ∈ p :: rest, tile q.1 q.2 zoom ∈ r := by
  refine ⟨_, rfl, lineLoop_nodup _ _ _ _ _ _ _ _ (by simp), ?_, lineLoop_head _ _ _ _ _ _ _ _ _ rfl, ?_⟩
  · intro t ht
    rw [lineLoop_mem _ ho] at ht
    rcases ht with ht | ⟨q, -, rfl⟩ | ⟨s, -, -, ht⟩
    · rw [List.mem_singleton.1 ht]; exact tile_Z _ _ _ hz
    · exact tile_Z _ _ _ hz
    · obtain ⟨q, rfl⟩ := betweenTiles_cases _ _ _ _ ht
      exact tile_Z _ _ _ hz
  · intro q hq
    rw [lineLoop_mem _ ho]
    rcases List.mem_cons.1 hq with rfl | hq
    · left; simp
    · right; left; exact ⟨q, hq, rfl⟩

/-- C09: the set of tiles does not depend on the order of the maps. -/
theorem C09_order_free (ord ord' : Nat → List TileID → List TileID) (ho : ∀ n l, (ord n l).Perm l) (ho' : ∀ n l, (ord' n l).Perm l)
    (line : List Pt) (zoom : Nat) (r r' : List TileID) (h : getTilesLine ord line zoom = some r)
    (h' : getTilesLine ord' line zoom = some r') (t : TileID) : t ∈ r ↔ t ∈ r' := by
  cases line with
  | nil => simp [getTilesLine] at h
  | cons p rest =>
    simp only [getTilesLine, Option.some.injEq] at h h'
    rw [← h, ← h', lineLoop_mem _ ho, lineLoop_mem _ ho']

/-- C09: a line without points panics. -/
theorem C09_empty_panics (ord : Nat → List TileID → List TileID) (zoom : Nat) : getTilesLine ord [] zoom = none := rfl

/-! ### Soundness: every tile is met by the line, within .0000001 of its ends -/

theorem fillVals_mem (a b v : Int) : v ∈ fillVals a b ↔ (a < v ∧ v < b) ∨ (b < v ∧ v < a) := by
  have core : ∀ lo hi : Int, lo ≤ hi → (v ∈ (if lo = hi ∨ hi - 1 = lo then ([] : List Int) else
      (List.range (hi - lo - 1).toNat).map fun k : Nat => lo + 1 + k) ↔ lo < v ∧ v < hi) := by
    intro lo hi hle
    split
    · simp only [List.not_mem_nil, false_iff]; omega
    · simp only [List.mem_map, List.mem_range]
      constructor
      · rintro ⟨k, hk, e⟩; omega
      · intro hv; exact ⟨(v - lo - 1).toNat, by omega, by omega⟩
  unfold fillVals
  by_cases hab : a > b
  · simp only [hab, if_true]
    rw [core b a (by omega)]; omega
  · simp only [hab, if_false]
    rw [core a b (by omega)]; omega

/-- the longitude of the west edge of column `x` -/
noncomputable def lonOf (x : Int) (z : Nat) : ℝ := (x : ℝ) / 2 ^ z * 360 - 180

/-- the latitude of the north edge of row `y` -/
noncomputable def latOf (y : Int) (z : Nat) : ℝ := 180 / Real.pi * Real.arctan (Real.sinh (Real.pi * (1 - 2 * (y : ℝ) / 2 ^ z)))

theorem bounds_eq (x y : Int) (z : Nat) : bounds ⟨x, y, z⟩ = { W := lonOf x z, E := lonOf (x + 1) z, N := latOf y z, S := latOf (y + 1) z } := rfl

theorem lonOf_le {x x' : Int} (h : x ≤ x') (z : Nat) : lonOf x z ≤ lonOf x' z := by
  unfold lonOf
  have : (x : ℝ) ≤ x' := by exact_mod_cast h
  gcongr

theorem latOf_le {y y' : Int} (h : y ≤ y') (z : Nat) : latOf y' z ≤ latOf y z := by
  unfold latOf
  have hpi := Real.pi_pos
  have h0 : (y : ℝ) ≤ y' := by exact_mod_cast h
  have h1 : Real.pi * (1 - 2 * (y' : ℝ) / 2 ^ z) ≤ Real.pi * (1 - 2 * (y : ℝ) / 2 ^ z) := by
    gcongr
  have h2 := Real.arctan_strictMono.monotone (Real.sinh_le_sinh.mpr h1)
  have h3 : 0 < 180 / Real.pi := by positivity
  exact mul_le_mul_of_nonneg_left h2 h3.le

theorem col_le_iff (x : Int) (lng lat : ℝ) (z : Nat) : x ≤ (tile lng lat z).X ↔ lonOf x z ≤ lng := by
  unfold tile lonOf
  have hn : (0 : ℝ) < 2 ^ z := by positivity
  simp only [zpow_natCast]
  rw [Int.le_floor, west_iff _ _ _ hn]

theorem row_le_iff (y : Int) (lng lat : ℝ) (z : Nat) (h1 : -90 < lat) (h2 : lat < 90) :
    y ≤ (tile lng lat z).Y ↔ lat ≤ latOf y z := by
  rw [tile_Y_eq h1 h2]
  unfold latOf
  have hn : (0 : ℝ) < 2 ^ z := by positivity
  simp only [zpow_natCast]
  rw [Int.le_floor, north_iff h1 h2 _ _ hn]

theorem produceVals_x_mem (vals : List Int) (c : Int) (z : Nat) (u : ℝ) :
    u ∈ produceVals vals c true z ↔ ∃ v ∈ vals, ∃ w, (w = v ∨ w = v + 1) ∧ (u = lonOf w z - eps ∨ u = lonOf w z + eps) := by
  unfold produceVals
  simp only [if_true, bounds_eq, List.mem_flatMap, List.mem_cons, List.not_mem_nil, or_false, exists_eq_or_imp, exists_eq_left]

theorem produceVals_y_mem (vals : List Int) (c : Int) (z : Nat) (u : ℝ) :
    u ∈ produceVals vals c false z ↔ ∃ v ∈ vals, ∃ w, (w = v ∨ w = v + 1) ∧ (u = latOf w z - eps ∨ u = latOf w z + eps) := by
  unfold produceVals
  simp only [Bool.false_eq_true, if_false, bounds_eq, List.mem_flatMap, List.mem_cons, List.not_mem_nil, or_false, exists_eq_or_imp,
    exists_eq_left]
  constructor
  · rintro ⟨v, hv, h | h⟩
    · exact ⟨v, hv, Or.inr h⟩
    · exact ⟨v, hv, Or.inl h⟩
  · rintro ⟨v, hv, h | h⟩
    · exact ⟨v, hv, Or.inr h⟩
    · exact ⟨v, hv, Or.inl h⟩

theorem mem_between (a b : Pt) (zoom : Nat) (t : TileID) :
    t ∈ betweenTiles a b zoom ↔ t = tile a.1 a.2 zoom ∨ t = tile b.1 b.2 zoom ∨
      (∃ v, (((tile a.1 a.2 zoom).X < v ∧ v < (tile b.1 b.2 zoom).X) ∨ ((tile b.1 b.2 zoom).X < v ∧ v < (tile a.1 a.2 zoom).X)) ∧
        ∃ w, (w = v ∨ w = v + 1) ∧ ∃ u, (u = lonOf w zoom - eps ∨ u = lonOf w zoom + eps) ∧
          t = tile u (a.2 + (u - a.1) * ((b.2 - a.2) / (b.1 - a.1))) zoom) ∨
      (∃ v, (((tile a.1 a.2 zoom).Y < v ∧ v < (tile b.1 b.2 zoom).Y) ∨ ((tile b.1 b.2 zoom).Y < v ∧ v < (tile a.1 a.2 zoom).Y)) ∧
        ∃ w, (w = v ∨ w = v + 1) ∧ ∃ u, (u = latOf w zoom - eps ∨ u = latOf w zoom + eps) ∧
          t = tile (a.1 + (u - a.2) * ((b.1 - a.1) / (b.2 - a.2))) u zoom) := by
  unfold betweenTiles
  simp only
  split
  · rw [List.mem_dedup]
    simp only [List.cons_append, List.mem_cons, List.mem_append, List.mem_map, produceVals_x_mem, produceVals_y_mem, fillVals_mem,
      interpolate, Bool.false_eq_true, if_false, if_true]
    constructor
    · rintro (h | h | ⟨u, ⟨v, hv, w, hw, hu⟩, h⟩ | ⟨u, ⟨v, hv, w, hw, hu⟩, h⟩)
      · exact Or.inl h
      · exact Or.inr (Or.inl h)
      · exact Or.inr (Or.inr (Or.inl ⟨v, hv, w, hw, u, hu, h.symm⟩))
      · exact Or.inr (Or.inr (Or.inr ⟨v, hv, w, hw, u, hu, h.symm⟩))
    · rintro (h | h | ⟨v, hv, w, hw, u, hu, h⟩ | ⟨v, hv, w, hw, u, hu, h⟩)
      · exact Or.inl h
      · exact Or.inr (Or.inl h)
      · exact Or.inr (Or.inr (Or.inl ⟨u, ⟨v, hv, w, hw, hu⟩, h.symm⟩))
      · exact Or.inr (Or.inr (Or.inr ⟨u, ⟨v, hv, w, hw, hu⟩, h.symm⟩))
  · rename_i hsame
    push Not at hsame
    simp only [List.mem_cons, List.not_mem_nil, or_false]
    constructor
    · rintro (h | h)
      · exact Or.inl h
      · exact Or.inr (Or.inl h)
    · rintro (h | h | ⟨v, hv, -⟩ | ⟨v, hv, -⟩)
      · exact Or.inl h
      · exact Or.inr h
      · omega
      · omega

/-- the point of the line through `a` and `b` at parameter `s` (0 is `a`, 1 is `b`) -/
def along (a b : Pt) (s : ℝ) : Pt := (a.1 + s * (b.1 - a.1), a.2 + s * (b.2 - a.2))

theorem between_sound (a b : Pt) (zoom : Nat) (ha : -90 < a.2 ∧ a.2 < 90) (hb : -90 < b.2 ∧ b.2 < 90) (t : TileID)
    (h : t ∈ betweenTiles a b zoom) : ∃ s r : ℝ, 0 ≤ r ∧ r ≤ 1 ∧ t = tile (along a b s).1 (along a b s).2 zoom ∧
      (|s - r| * |b.1 - a.1| ≤ eps ∨ |s - r| * |b.2 - a.2| ≤ eps) := by
  have heps : 0 ≤ eps := by unfold eps; norm_num
  rw [mem_between] at h
  rcases h with h | h | ⟨v, hv, w, hw, u, hu, h⟩ | ⟨v, hv, w, hw, u, hu, h⟩
  · exact ⟨0, 0, le_refl _, by norm_num, by simpa [along] using h, by simp [heps]⟩
  · exact ⟨1, 1, by norm_num, le_refl _, by simpa [along] using h, by simp [heps]⟩
  · -- a column strictly between
    have hk : (a.1 < lonOf w zoom ∧ lonOf w zoom ≤ b.1) ∨ (b.1 < lonOf w zoom ∧ lonOf w zoom ≤ a.1) := by
      rcases hv with ⟨h1, h2⟩ | ⟨h1, h2⟩
      · left
        constructor
        · rw [← not_le, ← col_le_iff w a.1 a.2]; omega
        · rw [← col_le_iff w b.1 b.2]; omega
      · right
        constructor
        · rw [← not_le, ← col_le_iff w b.1 b.2]; omega
        · rw [← col_le_iff w a.1 a.2]; omega
    have hd : b.1 - a.1 ≠ 0 := by rcases hk with ⟨h1, h2⟩ | ⟨h1, h2⟩ <;> intro e <;> linarith
    refine ⟨(u - a.1) / (b.1 - a.1), (lonOf w zoom - a.1) / (b.1 - a.1), ?_, ?_, ?_, Or.inl ?_⟩
    · rcases hk with ⟨h1, h2⟩ | ⟨h1, h2⟩
      · exact div_nonneg (by linarith) (by linarith)
      · exact div_nonneg_of_nonpos (by linarith) (by linarith)
    · rcases hk with ⟨h1, h2⟩ | ⟨h1, h2⟩
      · rw [div_le_one (by linarith)]; linarith
      · rw [div_le_one_of_neg (by linarith)]; linarith
    · rw [h]
      unfold along
      simp only
      congr 1
      · field_simp; ring
      · ring
    · rw [← abs_mul]
      have : ((u - a.1) / (b.1 - a.1) - (lonOf w zoom - a.1) / (b.1 - a.1)) * (b.1 - a.1) = u - lonOf w zoom := by
        field_simp; ring
      rw [this]
      rcases hu with e | e
      · rw [e, show lonOf w zoom - eps - lonOf w zoom = -eps by ring, abs_neg, abs_of_nonneg heps]
      · rw [e, show lonOf w zoom + eps - lonOf w zoom = eps by ring, abs_of_nonneg heps]
  · -- a row strictly between
    have hk : (latOf w zoom < a.2 ∧ b.2 ≤ latOf w zoom) ∨ (latOf w zoom < b.2 ∧ a.2 ≤ latOf w zoom) := by
      rcases hv with ⟨h1, h2⟩ | ⟨h1, h2⟩
      · left
        constructor
        · rw [← not_le, ← row_le_iff w a.1 a.2 zoom ha.1 ha.2]; omega
        · rw [← row_le_iff w b.1 b.2 zoom hb.1 hb.2]; omega
      · right
        constructor
        · rw [← not_le, ← row_le_iff w b.1 b.2 zoom hb.1 hb.2]; omega
        · rw [← row_le_iff w a.1 a.2 zoom ha.1 ha.2]; omega
    have hd : b.2 - a.2 ≠ 0 := by rcases hk with ⟨h1, h2⟩ | ⟨h1, h2⟩ <;> intro e <;> linarith
    refine ⟨(u - a.2) / (b.2 - a.2), (latOf w zoom - a.2) / (b.2 - a.2), ?_, ?_, ?_, Or.inr ?_⟩
    · rcases hk with ⟨h1, h2⟩ | ⟨h1, h2⟩
      · exact div_nonneg_of_nonpos (by linarith) (by linarith)
      · exact div_nonneg (by linarith) (by linarith)
    · rcases hk with ⟨h1, h2⟩ | ⟨h1, h2⟩
      · rw [div_le_one_of_neg (by linarith)]; linarith
      · rw [div_le_one (by linarith)]; linarith
    · rw [h]
      unfold along
      simp only
      congr 1
      · ring
      · field_simp; ring
    · rw [← abs_mul]
      have : ((u - a.2) / (b.2 - a.2) - (latOf w zoom - a.2) / (b.2 - a.2)) * (b.2 - a.2) = u - latOf w zoom := by
        field_simp; ring
      rw [this]
      rcases hu with e | e
      · rw [e, show latOf w zoom - eps - latOf w zoom = -eps by ring, abs_neg, abs_of_nonneg heps]
      · rw [e, show latOf w zoom + eps - latOf w zoom = eps by ring, abs_of_nonneg heps]

/-- C09: every tile of the cover is the tile of a vertex, or of a point on the line through two consecutive vertices whose
distance from the segment, measured along one of the axes, is at most .0000001. -/
theorem C09_sound (ord : Nat → List TileID → List TileID) (ho : ∀ n l, (ord n l).Perm l) (line : List Pt) (zoom : Nat)
    (hlat : ∀ p ∈ line, -90 < p.2 ∧ p.2 < 90) (r : List TileID) (h : getTilesLine ord line zoom = some r) (t : TileID) (ht : t ∈ r) :
    (∃ q ∈ line, t = tile q.1 q.2 zoom) ∨
    ∃ a b, (a, b) ∈ line.zip line.tail ∧ ∃ s k : ℝ, 0 ≤ k ∧ k ≤ 1 ∧
      t = tile (along a b s).1 (along a b s).2 zoom ∧ (|s - k| * |b.1 - a.1| ≤ eps ∨ |s - k| * |b.2 - a.2| ≤ eps) := by
  cases line with
  | nil => simp [getTilesLine] at h
  | cons p rest =>
    simp only [getTilesLine, Option.some.injEq] at h
    rw [← h, lineLoop_mem _ ho] at ht
    rcases ht with ht | ⟨q, hq, e⟩ | ⟨s, hs, -, ht⟩
    · left; exact ⟨p, List.mem_cons_self, List.mem_singleton.1 ht⟩
    · left; exact ⟨q, List.mem_cons_of_mem _ hq, e⟩
    · right
      have hm := List.of_mem_zip (a := s.1) (b := s.2) hs
      exact ⟨s.1, s.2, hs, between_sound s.1 s.2 zoom (hlat _ hm.1) (hlat _ (List.mem_cons_of_mem _ hm.2)) t ht⟩

/-! ### Completeness along one row -/

theorem lat_between (a b : Pt) (s : ℝ) (h0 : 0 ≤ s) (h1 : s ≤ 1) (lo hi : ℝ) (ha : lo ≤ a.2 ∧ a.2 ≤ hi) (hb : lo ≤ b.2 ∧ b.2 ≤ hi) :
    lo ≤ (along a b s).2 ∧ (along a b s).2 ≤ hi := by
  unfold along
  simp only
  constructor <;> nlinarith

theorem row_along (a b : Pt) (zoom : Nat) (ha : -90 < a.2 ∧ a.2 < 90) (hb : -90 < b.2 ∧ b.2 < 90)
    (hrow : (tile a.1 a.2 zoom).Y = (tile b.1 b.2 zoom).Y) (s : ℝ) (h0 : 0 ≤ s) (h1 : s ≤ 1) (x : ℝ) :
    (tile x (along a b s).2 zoom).Y = (tile a.1 a.2 zoom).Y := by
  rcases le_total a.2 b.2 with hab | hab
  · obtain ⟨l1, l2⟩ := lat_between a b s h0 h1 a.2 b.2 ⟨le_refl _, hab⟩ ⟨hab, le_refl _⟩
    have e1 := tile_row_mono ha.1 l1 (by linarith) a.1 x zoom
    have e2 := tile_row_mono (by linarith) l2 hb.2 x b.1 zoom
    omega
  · obtain ⟨l1, l2⟩ := lat_between a b s h0 h1 b.2 a.2 ⟨hab, le_refl _⟩ ⟨le_refl _, hab⟩
    have e1 := tile_row_mono hb.1 l1 (by linarith) b.1 x zoom
    have e2 := tile_row_mono (by linarith) l2 ha.2 x a.1 zoom
    omega

theorem tile_ext {t u : TileID} (h1 : t.X = u.X) (h2 : t.Y = u.Y) (h3 : t.Z = u.Z) : t = u := by
  cases t; cases u; simp_all

theorem eps_col (zoom : Nat) (hz : zoom ≤ 31) (v : Int) : lonOf v zoom + eps < lonOf (v + 1) zoom := by
  unfold lonOf eps
  have hn : (0 : ℝ) < 2 ^ zoom := by positivity
  have hle : (2 : ℝ) ^ zoom ≤ 2 ^ 31 := pow_le_pow_right₀ (by norm_num) hz
  push_cast
  have : ((v : ℝ) + 1) / 2 ^ zoom = (v : ℝ) / 2 ^ zoom + 1 / 2 ^ zoom := by ring
  rw [this]
  have h2 : (1 : ℝ) / 2 ^ 31 ≤ 1 / 2 ^ zoom := by gcongr
  have h3 : (1 : ℝ) / 2 ^ 31 * 360 > 1 / 10000000 := by norm_num
  nlinarith

/-- C09: between two consecutive vertices of one tile row, every tile the segment passes through is in the cover (zoom at
most 31, where a tile is wider than .0000001). -/
theorem C09_row_complete (ord : Nat → List TileID → List TileID) (ho : ∀ n l, (ord n l).Perm l) (line : List Pt) (zoom : Nat)
    (hz : zoom ≤ 31) (r : List TileID) (h : getTilesLine ord line zoom = some r) (a b : Pt) (hab : (a, b) ∈ line.zip line.tail)
    (ha : -90 < a.2 ∧ a.2 < 90) (hb : -90 < b.2 ∧ b.2 < 90) (hrow : (tile a.1 a.2 zoom).Y = (tile b.1 b.2 zoom).Y)
    (s : ℝ) (h0 : 0 ≤ s) (h1 : s ≤ 1) : tile (along a b s).1 (along a b s).2 zoom ∈ r := by
  cases line with
  | nil => simp [getTilesLine] at h
  | cons p rest =>
    have hmem := List.of_mem_zip hab
    obtain ⟨r', e', -, -, -, hv⟩ := C09_nodup_zoom_vertices ord ho p rest zoom (by omega)
    rw [h, Option.some.injEq] at e'
    have hva : tile a.1 a.2 zoom ∈ r := by rw [e']; exact hv a hmem.1
    have hvb : tile b.1 b.2 zoom ∈ r := by rw [e']; exact hv b (List.mem_cons_of_mem _ hmem.2)
    have hY := row_along a b zoom ha hb hrow s h0 h1 (along a b s).1
    generalize hq : tile (along a b s).1 (along a b s).2 zoom = q at *
    have hqX : q.X = (tile (along a b s).1 (along a b s).2 zoom).X := by rw [hq]
    have hqZ : q.Z = zoom := by rw [← hq]; exact tile_Z _ _ _ (by omega)
    have hn : (0 : ℝ) < 2 ^ zoom := by positivity
    by_cases ea : q.X = (tile a.1 a.2 zoom).X
    · have : q = tile a.1 a.2 zoom := tile_ext ea hY (by rw [hqZ, tile_Z _ _ _ (by omega)])
      rw [this]; exact hva
    · by_cases eb : q.X = (tile b.1 b.2 zoom).X
      · have : q = tile b.1 b.2 zoom := tile_ext eb (by rw [hY, hrow]) (by rw [hqZ, tile_Z _ _ _ (by omega)])
        rw [this]; exact hvb
      · -- strictly between
        have hbet : ((tile a.1 a.2 zoom).X < q.X ∧ q.X < (tile b.1 b.2 zoom).X) ∨ ((tile b.1 b.2 zoom).X < q.X ∧ q.X < (tile a.1 a.2 zoom).X) := by
          rcases le_total a.1 b.1 with hx | hx
          · left
            have e1 : a.1 ≤ (along a b s).1 := by unfold along; simp only; nlinarith
            have e2 : (along a b s).1 ≤ b.1 := by unfold along; simp only; nlinarith
            have := tile_col_mono e1 a.2 (along a b s).2 zoom
            have := tile_col_mono e2 (along a b s).2 b.2 zoom
            omega
          · right
            have e1 : (along a b s).1 ≤ a.1 := by unfold along; simp only; nlinarith
            have e2 : b.1 ≤ (along a b s).1 := by unfold along; simp only; nlinarith
            have := tile_col_mono e1 (along a b s).2 a.2 zoom
            have := tile_col_mono e2 b.2 (along a b s).2 zoom
            omega
        have heps := eps_col zoom hz q.X
        have hepos : 0 < eps := by unfold eps; norm_num
        have hk : (a.1 < lonOf q.X zoom ∧ lonOf (q.X + 1) zoom ≤ b.1) ∨ (b.1 < lonOf q.X zoom ∧ lonOf (q.X + 1) zoom ≤ a.1) := by
          rcases hbet with ⟨g1, g2⟩ | ⟨g1, g2⟩
          · left
            constructor
            · rw [← not_le, ← col_le_iff q.X a.1 a.2]; omega
            · rw [← col_le_iff (q.X + 1) b.1 b.2]; omega
          · right
            constructor
            · rw [← not_le, ← col_le_iff q.X b.1 b.2]; omega
            · rw [← col_le_iff (q.X + 1) a.1 a.2]; omega
        have hwid : ∀ v : Int, lonOf (v + 1) zoom - lonOf v zoom = 360 / 2 ^ zoom := by
          intro v; unfold lonOf; push_cast; field_simp; ring
        have hlong : |b.1 - a.1| > (bounds (tile p.1 p.2 zoom)).E - (bounds (tile p.1 p.2 zoom)).W := by
          have e : (bounds (tile p.1 p.2 zoom)).E - (bounds (tile p.1 p.2 zoom)).W = 360 / 2 ^ zoom := by
            have hZ := tile_Z p.1 p.2 zoom (by omega)
            generalize tile p.1 p.2 zoom = T at *
            obtain ⟨X, Y, Z⟩ := T
            simp only at hZ
            subst hZ
            rw [bounds_eq]
            exact hwid X
          rw [e, ← hwid q.X]
          rcases hk with ⟨g1, g2⟩ | ⟨g1, g2⟩
          · rw [abs_of_pos (by linarith)]; linarith
          · rw [abs_of_neg (by linarith)]; linarith
        have hd : b.1 - a.1 ≠ 0 := by rcases hk with ⟨g1, g2⟩ | ⟨g1, g2⟩ <;> intro e <;> linarith
        simp only [getTilesLine, Option.some.injEq] at h
        rw [← h, lineLoop_mem _ ho]
        right; right
        refine ⟨(a, b), hab, Or.inl hlong, ?_⟩
        rw [mem_between]
        right; right; left
        refine ⟨q.X, hbet, q.X, Or.inl rfl, lonOf q.X zoom + eps, Or.inr rfl, ?_⟩
        have es : a.2 + (lonOf q.X zoom + eps - a.1) * ((b.2 - a.2) / (b.1 - a.1)) =
            (along a b ((lonOf q.X zoom + eps - a.1) / (b.1 - a.1))).2 := by unfold along; simp only; ring
        rw [es]
        apply tile_ext
        · apply le_antisymm
          · rw [col_le_iff]; linarith
          · have : ¬ (q.X + 1 ≤ (tile (lonOf q.X zoom + eps) (along a b ((lonOf q.X zoom + eps - a.1) / (b.1 - a.1))).2 zoom).X) := by
              rw [col_le_iff]; linarith
            omega
        · rw [hY]
          refine (row_along a b zoom ha hb hrow _ ?_ ?_ _).symm
          · rcases hk with ⟨g1, g2⟩ | ⟨g1, g2⟩
            · exact div_nonneg (by linarith) (by linarith)
            · exact div_nonneg_of_nonpos (by linarith) (by linarith)
          · rcases hk with ⟨g1, g2⟩ | ⟨g1, g2⟩
            · rw [div_le_one (by linarith)]; linarith
            · rw [div_le_one_of_neg (by linarith)]; linarith
        · rw [hqZ, tile_Z _ _ _ (by omega)]

/-- a case that meets the hypotheses: the tiles between those of the ends of a line along the tenth parallel -/
theorem C09_row_example (ord : Nat → List TileID → List TileID) (ho : ∀ n l, (ord n l).Perm l) :
    ∃ r, getTilesLine ord [(-100, 10), (100, 10)] 2 = some r ∧ tile 1 10 (2 : Nat) ∈ r ∧ (tile 1 10 (2 : Nat)).X = 2 ∧
      tile 1 10 (2 : Nat) ≠ tile (-100) 10 (2 : Nat) ∧ tile 1 10 (2 : Nat) ≠ tile 100 10 (2 : Nat) := by
  have c : ∀ (x : ℝ) (k : Int), (k : ℝ) ≤ (x + 180) / 90 → (x + 180) / 90 < k + 1 → (tile x 10 (2 : Nat)).X = k := by
    intro x k h1 h2
    unfold tile
    simp only
    rw [Int.floor_eq_iff]
    have : (x + 180) / 360 * (2 : ℝ) ^ ((2 : Nat) : Int) = (x + 180) / 90 := by norm_num; ring
    rw [this]; exact ⟨h1, h2⟩
  have c1 := c 1 2 (by norm_num) (by norm_num)
  have c2 := c (-100) 0 (by norm_num) (by norm_num)
  have c3 := c 100 3 (by norm_num) (by norm_num)
  obtain ⟨r, hr, -⟩ := C09_nodup_zoom_vertices ord ho (-100, 10) [(100, 10)] 2 (by norm_num)
  refine ⟨r, hr, ?_, c1, fun e => by rw [e, c2] at c1; omega, fun e => by rw [e, c3] at c1; omega⟩
  have := C09_row_complete ord ho _ 2 (by norm_num) r hr (-100, 10) (100, 10) (by simp) (by norm_num) (by norm_num) rfl
    (101 / 200) (by norm_num) (by norm_num)
  have e : along (-100, 10) (100, 10) (101 / 200) = (1, 10) := by unfold along; norm_num
  rw [e] at this
  exact this

/-! ### Completeness along one column -/

theorem col_along (a b : Pt) (zoom : Nat) (hcol : (tile a.1 a.2 zoom).X = (tile b.1 b.2 zoom).X) (s : ℝ) (h0 : 0 ≤ s) (h1 : s ≤ 1)
    (y : ℝ) : (tile (along a b s).1 y zoom).X = (tile a.1 a.2 zoom).X := by
  rcases le_total a.1 b.1 with hx | hx
  · have e1 : a.1 ≤ (along a b s).1 := by unfold along; simp only; nlinarith
    have e2 : (along a b s).1 ≤ b.1 := by unfold along; simp only; nlinarith
    have := tile_col_mono e1 a.2 y zoom
    have := tile_col_mono e2 y b.2 zoom
    omega
  · have e1 : (along a b s).1 ≤ a.1 := by unfold along; simp only; nlinarith
    have e2 : b.1 ≤ (along a b s).1 := by unfold along; simp only; nlinarith
    have := tile_col_mono e1 y a.2 zoom
    have := tile_col_mono e2 b.2 y zoom
    omega

/-- C09: between two consecutive vertices of one tile column, every tile the segment passes through is in the cover,
provided the segment is taller than the tile of the line's first vertex and the rows in between are taller than
.0000001. `C09_polar_gap` shows that the first proviso is needed. -/
theorem C09_column_complete (ord : Nat → List TileID → List TileID) (ho : ∀ n l, (ord n l).Perm l) (p : Pt) (rest : List Pt)
    (zoom : Nat) (hz : zoom < 9223372036854775808) (r : List TileID) (h : getTilesLine ord (p :: rest) zoom = some r) (a b : Pt)
    (hab : (a, b) ∈ (p :: rest).zip rest) (ha : -90 < a.2 ∧ a.2 < 90) (hb : -90 < b.2 ∧ b.2 < 90)
    (hcol : (tile a.1 a.2 zoom).X = (tile b.1 b.2 zoom).X)
    (hlong : |b.2 - a.2| > (bounds (tile p.1 p.2 zoom)).N - (bounds (tile p.1 p.2 zoom)).S)
    (hrows : ∀ x y : Int, ((tile a.1 a.2 zoom).Y < y ∧ y < (tile b.1 b.2 zoom).Y ∨ (tile b.1 b.2 zoom).Y < y ∧ y < (tile a.1 a.2 zoom).Y) →
      eps < (bounds ⟨x, y, zoom⟩).N - (bounds ⟨x, y, zoom⟩).S)
    (s : ℝ) (h0 : 0 ≤ s) (h1 : s ≤ 1) : tile (along a b s).1 (along a b s).2 zoom ∈ r := by
  have hmem := List.of_mem_zip hab
  obtain ⟨r', e', -, -, -, hv⟩ := C09_nodup_zoom_vertices ord ho p rest zoom hz
  rw [h, Option.some.injEq] at e'
  have hva : tile a.1 a.2 zoom ∈ r := by rw [e']; exact hv a hmem.1
  have hvb : tile b.1 b.2 zoom ∈ r := by rw [e']; exact hv b (List.mem_cons_of_mem _ hmem.2)
  have hX := col_along a b zoom hcol s h0 h1 (along a b s).2
  have hlat : -90 < (along a b s).2 ∧ (along a b s).2 < 90 := by
    rcases le_total a.2 b.2 with hx | hx
    · obtain ⟨l1, l2⟩ := lat_between a b s h0 h1 a.2 b.2 ⟨le_refl _, hx⟩ ⟨hx, le_refl _⟩
      exact ⟨by linarith, by linarith⟩
    · obtain ⟨l1, l2⟩ := lat_between a b s h0 h1 b.2 a.2 ⟨hx, le_refl _⟩ ⟨le_refl _, hx⟩
      exact ⟨by linarith, by linarith⟩
  generalize hq : tile (along a b s).1 (along a b s).2 zoom = q at *
  have hqZ : q.Z = zoom := by rw [← hq]; exact tile_Z _ _ _ hz
  by_cases ea : q.Y = (tile a.1 a.2 zoom).Y
  · have : q = tile a.1 a.2 zoom := tile_ext hX ea (by rw [hqZ, tile_Z _ _ _ hz])
    rw [this]; exact hva
  · by_cases eb : q.Y = (tile b.1 b.2 zoom).Y
    · have : q = tile b.1 b.2 zoom := tile_ext (by rw [hX, hcol]) eb (by rw [hqZ, tile_Z _ _ _ hz])
      rw [this]; exact hvb
    · have hbet : ((tile a.1 a.2 zoom).Y < q.Y ∧ q.Y < (tile b.1 b.2 zoom).Y) ∨ ((tile b.1 b.2 zoom).Y < q.Y ∧ q.Y < (tile a.1 a.2 zoom).Y) := by
        rcases le_total a.2 b.2 with hx | hx
        · right
          obtain ⟨l1, l2⟩ := lat_between a b s h0 h1 a.2 b.2 ⟨le_refl _, hx⟩ ⟨hx, le_refl _⟩
          have e1 := tile_row_mono ha.1 l1 hlat.2 a.1 (along a b s).1 zoom
          have e2 := tile_row_mono hlat.1 l2 hb.2 (along a b s).1 b.1 zoom
          rw [hq] at e1 e2
          omega
        · left
          obtain ⟨l1, l2⟩ := lat_between a b s h0 h1 b.2 a.2 ⟨hx, le_refl _⟩ ⟨le_refl _, hx⟩
          have e1 := tile_row_mono hb.1 l1 hlat.2 b.1 (along a b s).1 zoom
          have e2 := tile_row_mono hlat.1 l2 ha.2 (along a b s).1 a.1 zoom
          rw [hq] at e1 e2
          omega
      have heps := hrows 0 q.Y hbet
      rw [bounds_eq] at heps
      simp only at heps
      have hepos : 0 < eps := by unfold eps; norm_num
      have hk : (latOf q.Y zoom < a.2 ∧ b.2 ≤ latOf (q.Y + 1) zoom) ∨ (latOf q.Y zoom < b.2 ∧ a.2 ≤ latOf (q.Y + 1) zoom) := by
        rcases hbet with ⟨g1, g2⟩ | ⟨g1, g2⟩
        · left
          constructor
          · rw [← not_le, ← row_le_iff q.Y a.1 a.2 zoom ha.1 ha.2]; omega
          · rw [← row_le_iff (q.Y + 1) b.1 b.2 zoom hb.1 hb.2]; omega
        · right
          constructor
          · rw [← not_le, ← row_le_iff q.Y b.1 b.2 zoom hb.1 hb.2]; omega
          · rw [← row_le_iff (q.Y + 1) a.1 a.2 zoom ha.1 ha.2]; omega
      have hd : b.2 - a.2 ≠ 0 := by rcases hk with ⟨g1, g2⟩ | ⟨g1, g2⟩ <;> intro e <;> linarith
      have hu : -90 < latOf (q.Y + 1) zoom + eps ∧ latOf (q.Y + 1) zoom + eps < 90 := by
        have k1 : -90 < latOf (q.Y + 1) zoom := (edge_lat _).1
        have k2 : latOf q.Y zoom < 90 := (edge_lat _).2
        exact ⟨by linarith, by linarith⟩
      simp only [getTilesLine, Option.some.injEq] at h
      rw [← h, lineLoop_mem _ ho]
      right; right
      refine ⟨(a, b), hab, Or.inr hlong, ?_⟩
      rw [mem_between]
      right; right; right
      refine ⟨q.Y, hbet, q.Y + 1, Or.inr rfl, latOf (q.Y + 1) zoom + eps, Or.inr rfl, ?_⟩
      have es : a.1 + (latOf (q.Y + 1) zoom + eps - a.2) * ((b.1 - a.1) / (b.2 - a.2)) =
          (along a b ((latOf (q.Y + 1) zoom + eps - a.2) / (b.2 - a.2))).1 := by unfold along; simp only; ring
      rw [es]
      apply tile_ext
      · rw [hX]
        refine (col_along a b zoom hcol _ ?_ ?_ _).symm
        · rcases hk with ⟨g1, g2⟩ | ⟨g1, g2⟩
          · exact div_nonneg_of_nonpos (by linarith) (by linarith)
          · exact div_nonneg (by linarith) (by linarith)
        · rcases hk with ⟨g1, g2⟩ | ⟨g1, g2⟩
          · rw [div_le_one_of_neg (by linarith)]; linarith
          · rw [div_le_one (by linarith)]; linarith
      · apply le_antisymm
        · rw [row_le_iff _ _ _ _ hu.1 hu.2]; linarith
        · have : ¬ (q.Y + 1 ≤ (tile (along a b ((latOf (q.Y + 1) zoom + eps - a.2) / (b.2 - a.2))).1 (latOf (q.Y + 1) zoom + eps) zoom).Y) := by
            rw [row_le_iff _ _ _ _ hu.1 hu.2]; linarith
          omega
      · rw [hqZ, tile_Z _ _ _ hz]

/-! ### What is missed -/

theorem latOf_1_1 : latOf 1 1 = 0 := by
  unfold latOf
  have : Real.pi * (1 - 2 * (((1 : Int) : ℝ)) / 2 ^ 1) = 0 := by norm_num
  rw [this, Real.sinh_zero, Real.arctan_zero, mul_zero]

theorem latOf_0_1 : 45 < latOf 0 1 := by
  have h := arctan_sinh_half
  unfold latOf
  have e : Real.pi * (1 - 2 * (((0 : Int) : ℝ)) / 2 ^ 1) = Real.pi := by norm_num
  rw [e]
  have hpi := Real.pi_pos
  have h1 := Real.arctan_strictMono.monotone (Real.sinh_le_sinh.2 (show Real.pi / 2 ≤ Real.pi by linarith))
  calc (45 : ℝ) < _ := h
    _ ≤ _ := by gcongr

theorem latOf_2_1 : latOf 2 1 < -45 := by
  have h := arctan_sinh_half
  unfold latOf
  have e : Real.pi * (1 - 2 * (((2 : Int) : ℝ)) / 2 ^ 1) = -Real.pi := by norm_num
  rw [e, Real.sinh_neg, Real.arctan_neg]
  have hpi := Real.pi_pos
  have h1 := Real.arctan_strictMono.monotone (Real.sinh_le_sinh.2 (show Real.pi / 2 ≤ Real.pi by linarith))
  have h2 : 180 / Real.pi * Real.arctan (Real.sinh (Real.pi / 2)) ≤ 180 / Real.pi * Real.arctan (Real.sinh Real.pi) := by gcongr
  linarith

/-- C09: "every tile the line passes through" is false.  The segment from (-10, 1) to (1, -10) passes through (-4.5, -4.5) in
tile 1/0/1, and the cover at zoom 1 is the two tiles of its ends only. -/
theorem C09_misses_corner (ord : Nat → List TileID → List TileID) :
    getTilesLine ord [(-10, 1), (1, -10)] 1 = some [⟨0, 0, 1⟩, ⟨1, 1, 1⟩] ∧
    along (-10, 1) (1, -10) (1 / 2) = (-9 / 2, -9 / 2) ∧ tile (-9 / 2) (-9 / 2) (1 : Nat) = ⟨0, 1, 1⟩ := by
  have h0 := latOf_0_1
  have h1 := latOf_1_1
  have h2 := latOf_2_1
  have t1 : tile (-10) 1 (1 : Nat) = ⟨0, 0, 1⟩ := by
    refine (C05_tile_iff_in_bounds _ _ 0 0 1 (by norm_num) (by norm_num) (by norm_num)).2 ?_
    rw [bounds_eq]
    refine ⟨by simp only [lonOf]; norm_num, by simp only [lonOf]; norm_num, ?_, ?_⟩
    · show latOf 1 1 < 1
      rw [h1]; norm_num
    · show 1 ≤ latOf 0 1
      linarith
  have t2 : tile 1 (-10) (1 : Nat) = ⟨1, 1, 1⟩ := by
    refine (C05_tile_iff_in_bounds _ _ 1 1 1 (by norm_num) (by norm_num) (by norm_num)).2 ?_
    rw [bounds_eq]
    refine ⟨by simp only [lonOf]; norm_num, by simp only [lonOf]; norm_num, ?_, ?_⟩
    · show latOf 2 1 < -10
      linarith
    · show -10 ≤ latOf 1 1
      rw [h1]; norm_num
  have t3 : tile (-9 / 2) (-9 / 2) (1 : Nat) = ⟨0, 1, 1⟩ := by
    refine (C05_tile_iff_in_bounds _ _ 0 1 1 (by norm_num) (by norm_num) (by norm_num)).2 ?_
    rw [bounds_eq]
    refine ⟨by simp only [lonOf]; norm_num, by simp only [lonOf]; norm_num, ?_, ?_⟩
    · show latOf 2 1 < -9 / 2
      linarith
    · show -9 / 2 ≤ latOf 1 1
      rw [h1]; norm_num
  refine ⟨?_, by unfold along; norm_num, t3⟩
  simp only [getTilesLine, lineLoop, lineStep, t1, t2, bounds_eq]
  rw [if_neg]
  · rfl
  · have w : lonOf (0 + 1) 1 - lonOf 0 1 = 180 := by unfold lonOf; norm_num
    have e : latOf (0 + 1) 1 = 0 := h1
    rw [w, e]
    rintro (h | h)
    · norm_num [abs_of_pos] at h
    · rw [show (-10 : ℝ) - 1 = -11 by norm_num, abs_neg, abs_of_pos (by norm_num)] at h
      linarith

theorem sinh_quarter : (65 : ℝ) / 100 < Real.sinh (Real.pi / 4) ^ 2 := by
  have hpi := Real.pi_gt_d2
  have e : Real.sinh (Real.pi / 4) = 2 * Real.sinh (Real.pi / 8) * Real.cosh (Real.pi / 8) := by
    rw [← Real.sinh_two_mul]; congr 1; ring
  have h1 : Real.pi / 8 ≤ Real.sinh (Real.pi / 8) := Real.self_le_sinh_iff.2 (by positivity)
  have h2 := Real.cosh_sq (Real.pi / 8)
  rw [e]
  have : (2 * Real.sinh (Real.pi / 8) * Real.cosh (Real.pi / 8)) ^ 2 = 4 * Real.sinh (Real.pi / 8) ^ 2 * (Real.sinh (Real.pi / 8) ^ 2 + 1) := by
    rw [mul_pow, mul_pow, h2]; ring
  rw [this]
  have h3 : (39 : ℝ) / 100 < Real.sinh (Real.pi / 8) := by linarith
  have h4 : (39 / 100 : ℝ) ^ 2 < Real.sinh (Real.pi / 8) ^ 2 := by gcongr
  nlinarith

theorem polar_height : latOf 1 3 - latOf 3 3 ≤ latOf 3 3 - latOf 4 3 := by
  have hpi := Real.pi_pos
  have e4 : latOf 4 3 = 0 := by
    unfold latOf
    have : Real.pi * (1 - 2 * (((4 : Int) : ℝ)) / 2 ^ 3) = 0 := by norm_num
    rw [this, Real.sinh_zero, Real.arctan_zero, mul_zero]
  have e3 : latOf 3 3 = 180 / Real.pi * Real.arctan (Real.sinh (Real.pi / 4)) := by
    unfold latOf
    have : Real.pi * (1 - 2 * (((3 : Int) : ℝ)) / 2 ^ 3) = Real.pi / 4 := by norm_num; ring
    rw [this]
  have e1 : latOf 1 3 = 180 / Real.pi * Real.arctan (Real.sinh (3 * (Real.pi / 4))) := by
    unfold latOf
    have : Real.pi * (1 - 2 * (((1 : Int) : ℝ)) / 2 ^ 3) = 3 * (Real.pi / 4) := by norm_num; ring
    rw [this]
  rw [e4, e3, e1, Real.sinh_three_mul]
  have hq := sinh_quarter
  have hp : 0 < Real.sinh (Real.pi / 4) := Real.sinh_pos_iff.2 (by positivity)
  generalize Real.sinh (Real.pi / 4) = t at *
  have key : Real.arctan (4 * t ^ 3 + 3 * t) ≤ 2 * Real.arctan t := by
    by_cases h1 : t < 1
    · rw [Real.two_mul_arctan (by linarith) h1]
      apply Real.arctan_strictMono.monotone
      have h2 : 0 < 1 - t ^ 2 := by nlinarith
      rw [le_div_iff₀ h2]
      have : 0 ≤ 4 * (t ^ 2) ^ 2 - t ^ 2 - 1 := by nlinarith
      nlinarith
    · push Not at h1
      have := Real.arctan_strictMono.monotone h1
      rw [Real.arctan_one] at this
      have := Real.arctan_lt_pi_div_two (4 * t ^ 3 + 3 * t)
      linarith
  have h3 : 180 / Real.pi * Real.arctan (4 * t ^ 3 + 3 * t) ≤ 180 / Real.pi * (2 * Real.arctan t) := by gcongr
  linarith

/-- C09: even along one column a row can be left out, since the height of the *first* tile decides what a long segment is.
The segment of the meridian 0 from the north edge of row 3 to the north edge of row 1 (zoom 3) has the cover of its two ends
only, though it passes through row 2. -/
theorem C09_polar_gap (ord : Nat → List TileID → List TileID) :
    getTilesLine ord [(0, latOf 3 3), (0, latOf 1 3)] 3 = some [⟨4, 3, 3⟩, ⟨4, 1, 3⟩] ∧
    latOf 3 3 ≤ latOf 2 3 ∧ latOf 2 3 ≤ latOf 1 3 ∧ tile 0 (latOf 2 3) (3 : Nat) = ⟨4, 2, 3⟩ := by
  have tl : ∀ y : Int, tile 0 (latOf y 3) (3 : Nat) = ⟨4, y, 3⟩ := by
    intro y
    have hl : -90 < latOf y 3 ∧ latOf y 3 < 90 := edge_lat _
    refine (C05_tile_iff_in_bounds _ _ 4 y 3 (by norm_num) hl.1 hl.2).2 ?_
    have hs := (C04_positive_size ⟨4, y, 3⟩).2
    rw [bounds_eq] at hs ⊢
    exact ⟨by simp only [lonOf]; norm_num, by simp only [lonOf]; norm_num, hs, le_refl _⟩
  refine ⟨?_, latOf_le (by norm_num) _, latOf_le (by norm_num) _, tl 2⟩
  simp only [getTilesLine, lineLoop, lineStep, tl, bounds_eq]
  rw [if_neg]
  · rfl
  · have w : lonOf (4 + 1) 3 - lonOf 4 3 = 45 := by unfold lonOf; norm_num
    have hp := polar_height
    have hm : latOf 3 3 ≤ latOf 1 3 := latOf_le (by norm_num) _
    rw [w]
    rintro (h | h)
    · norm_num at h
    · rw [abs_of_nonneg (by linarith)] at h
      have : latOf (3 + 1) 3 = latOf 4 3 := rfl
      linarith

/-! ## C13, continued -/

theorem polygon_nodup (rings : List (List Pt)) (zoom : Nat) (r : List TileID) (h : getTilesPolygon rings zoom = some r) : r.Nodup := by
  have sub : ∀ (pb : Box) (ts r : List TileID), keep rings pb ts = some r → r.Sublist ts := by
    intro pb ts
    induction ts with
    | nil => intro r h; simp only [keep, Option.some.injEq] at h; rw [← h]
    | cons t ts ih =>
      intro r h
      unfold keep at h
      cases hb : tilePolygon rings pb t with
      | none => rw [hb] at h; cases h
      | some b =>
        rw [hb] at h
        simp only [Option.map_eq_some_iff] at h
        obtain ⟨r', h1, h2⟩ := h
        rw [← h2]
        cases b
        · exact (ih r' h1).cons _
        · exact (ih r' h1).cons_cons _
  cases rings with
  | nil => cases h
  | cons outer holes =>
    unfold getTilesPolygon at h
    simp only at h
    exact (sub _ _ _ h).nodup (candidates_nodup _ _ _ (getDif_nodup _ _) (getDif_nodup _ _))

/-- C13: the cover of a MultiLineString is the covers of its lines one after the other, each tile kept where it is first
seen. -/
theorem C13_multi_line (ord : Nat → Nat → List TileID → List TileID) (zoom : Nat) (ls : List (List Pt)) (covers : List (List TileID))
    (hl : covers.length = ls.length)
    (h : ∀ i l c, ls[i]? = some l → covers[i]? = some c → tileCover (fun _ => ord i) zoom (.lineString l) = some c) :
    tileCover ord zoom (.multiLineString ls) = some covers.flatten.eraseDups := by
  refine mergeParts_eq _ ls covers hl h ?_
  intro c hc
  obtain ⟨i, hi, e⟩ := List.getElem_of_mem hc
  have h1 := h i (ls[i]'(by omega)) c (List.getElem?_eq_getElem _) (by rw [List.getElem?_eq_getElem hi, e])
  cases hls : ls[i]'(by omega) with
  | nil => rw [hls] at h1; cases h1
  | cons p rest =>
    rw [hls] at h1
    simp only [tileCover, getTilesLine, Option.some.injEq] at h1
    rw [← h1]
    exact lineLoop_nodup _ _ _ _ _ _ _ _ (by simp)

/-- C13: the cover of a MultiPolygon likewise; here the parts are covered without the test for more than three points. -/
theorem C13_multi_polygon (ord : Nat → Nat → List TileID → List TileID) (zoom : Nat) (ps : List (List (List Pt)))
    (covers : List (List TileID)) (hl : covers.length = ps.length)
    (h : ∀ (i : Nat) p c, ps[i]? = some p → covers[i]? = some c → getTilesPolygon p zoom = some c) :
    tileCover ord zoom (.multiPolygon ps) = some covers.flatten.eraseDups := by
  refine mergeParts_eq _ ps covers hl h ?_
  intro c hc
  obtain ⟨i, hi, e⟩ := List.getElem_of_mem hc
  exact polygon_nodup _ zoom c (h i (ps[i]'(by omega)) c (List.getElem?_eq_getElem _) (by rw [List.getElem?_eq_getElem hi, e]))

/-- C13: a part that panics makes the whole call panic. -/
theorem C13_multi_panics (ord : Nat → Nat → List TileID → List TileID) (zoom : Nat) :
    (∀ ls : List (List Pt), [] ∈ ls → tileCover ord zoom (.multiLineString ls) = none) ∧
    (∀ ps : List (List (List Pt)), [] ∈ ps → tileCover ord zoom (.multiPolygon ps) = none) := by
  constructor
  · intro ls h
    obtain ⟨i, hi, e⟩ := List.getElem_of_mem h
    exact mergeParts_panics _ ls 0 [] i [] (by rw [List.getElem?_eq_getElem hi, e]) rfl
  · intro ps h
    obtain ⟨i, hi, e⟩ := List.getElem_of_mem h
    exact mergeParts_panics _ ps 0 [] i [] (by rw [List.getElem?_eq_getElem hi, e]) rfl

/-- C13: a point has its own tile only; a polygon whose outer ring has at most three points has none, others are covered as
polygons. -/
theorem C13_single (ord : Nat → Nat → List TileID → List TileID) (zoom : Nat) :
    (∀ p : Pt, tileCover ord zoom (.point p) = some [tile p.1 p.2 zoom]) ∧
    (∀ (outer : List Pt) holes, outer.length ≤ 3 → tileCover ord zoom (.polygon (outer :: holes)) = some []) ∧
    (∀ (outer : List Pt) holes, 3 < outer.length →
      tileCover ord zoom (.polygon (outer :: holes)) = getTilesPolygon (outer :: holes) zoom) ∧
    (∀ l : List Pt, tileCover ord zoom (.lineString l) = getTilesLine (ord 0) l zoom) := by
  refine ⟨fun _ => rfl, fun outer holes h => ?_, fun outer holes h => ?_, fun _ => rfl⟩
  · show (if outer.length > 3 then _ else _) = _
    rw [if_neg (by omega)]
  · show (if outer.length > 3 then _ else _) = _
    rw [if_pos h]

/-- C13: a MultiPoint is covered from its LineString field and not from its points: with that field empty, as a GeoJSON
MultiPoint has it, the call panics, whatever the points are. -/
theorem C13_multiPoint_panics (ord : Nat → Nat → List TileID → List TileID) (zoom : Nat) (points : List Pt) :
    tileCover ord zoom (.multiPoint points []) = none := rfl

/-- two lines over the same two tiles: the union has each tile once -/
theorem C13_example (ord : Nat → Nat → List TileID → List TileID) :
    tileCover ord 1 (.multiLineString [[(-10, 1), (1, -10)], [(-10, 1), (1, -10)]]) = some [⟨0, 0, 1⟩, ⟨1, 1, 1⟩] := by
  rw [C13_multi_line ord 1 _ [[⟨0, 0, 1⟩, ⟨1, 1, 1⟩], [⟨0, 0, 1⟩, ⟨1, 1, 1⟩]] rfl]
  · rfl
  · intro i l c h1 h2
    have : i = 0 ∨ i = 1 := by
      have := (List.getElem?_eq_some_iff.1 h1).1
      simp at this; omega
    have hc : c = [⟨0, 0, 1⟩, ⟨1, 1, 1⟩] ∧ l = [(-10, 1), (1, -10)] := by
      rcases this with rfl | rfl <;> simp at h1 h2 <;> exact ⟨h2.symm, h1.symm⟩
    rw [hc.1, hc.2]
    exact (C09_misses_corner (ord i)).1

end Verif.Cover
