import Verif.Model.MvtDefaults
import Verif.Props.MvtReduce
import Verif.Props.MvtProject
import Verif.Props.TileID

/-!
# C77, C78: features of a tile map; the default reduction
-/
namespace Verif.MvtDef
open Verif.Go Verif.Tid Verif.MvtProj

/-! ## C77 -/

/-- Specification: the value of a key in a map with the entries `es`. -/
def lookup {V : Type} (es : List (String × V)) (k : String) : Option V := (es.find? fun e => e.1 = k).map Prod.snd

theorem copy_lookup {V : Type} (es : List (String × PropVal V)) (hd : (es.map Prod.fst).Nodup) (k : String) :
    copyProps es k = lookup es k := by
  have key : ∀ (es : List (String × PropVal V)) (m : PropMap V), (es.map Prod.fst).Nodup →
      es.foldl (fun m e => PropMap.put m e.1 e.2) m k = ((es.find? fun e => e.1 = k).map Prod.snd).or (m k) := by
    intro es
    induction es with
    | nil => intro m _; rfl
    | cons e es ih =>
      intro m hd
      rw [List.map_cons, List.nodup_cons] at hd
      rw [List.foldl_cons, ih _ hd.2]
      by_cases hk : e.1 = k
      · have hn : es.find? (fun e => e.1 = k) = none := by
          rw [List.find?_eq_none]
          intro x hx hxk
          have : x.1 = k := by simpa using hxk
          exact hd.1 (by rw [hk, ← this]; exact List.mem_map_of_mem hx)
        rw [hn, List.find?_cons_of_pos (by simpa using hk)]
        simp [PropMap.put, hk]
      · rw [List.find?_cons_of_neg (by simpa using hk)]
        have : PropMap.put m e.1 e.2 k = m k := by unfold PropMap.put; rw [if_neg (Ne.symm hk)]
        rw [this]
  unfold copyProps lookup
  rw [key es _ hd, Option.or_none]

/-- Specification: the part of a geometry its type names. -/
inductive Part (F : Type) where
  | point (p : List F)
  | multiPoint (ps : List (List F))
  | lineString (l : List (List F))
  | multiLineString (ls : List (List (List F)))
  | polygon (p : List (List (List F)))
  | multiPolygon (ps : List (List (List (List F))))
  | none

/-- Specification: what a geometry with this type is. -/
def GeomData.part {F : Type} (g : GeomData F) : Part F :=
  match g.type with
  | "Point" => .point g.point
  | "MultiPoint" => .multiPoint g.multiPoint
  | "LineString" => .lineString g.lineString
  | "MultiLineString" => .multiLineString g.multiLineString
  | "Polygon" => .polygon g.polygon
  | "MultiPolygon" => .multiPolygon g.multiPolygon
  | _ => .none

theorem pick_part {F : Type} (g : GeomData F) : (pick g).type = g.type ∧ (pick g).part = g.part := by
  obtain ⟨t, a, b, c, d, e, f⟩ := g
  unfold pick GeomData.part
  simp only
  split_ifs with h1 h2 h3 h4 h5 h6 <;> (try subst t) <;> refine ⟨rfl, ?_⟩ <;> try rfl
  split <;> simp_all

/-- **C77.** `NewFeatures` makes one feature for each tile of the map, whatever the order the map is iterated in: feature and tile correspond,
the feature's geometry is the tile's, its property TILEID is the tile's name, COLORKEY is "white", and every other property is the given
one. -/
theorem C77_features {F V : Type} (es : List (TileID × GeomData F)) (props : List (String × PropVal V)) (hp : (props.map Prod.fst).Nodup) :
    List.Forall₂ (fun (e : TileID × GeomData F) (f : Feature F V) =>
      f.geom.type = e.2.type ∧ f.geom.part = e.2.part ∧ f.hasId = false ∧
      f.props "TILEID" = some (.str (tilestr e.1)) ∧ f.props "COLORKEY" = some (.str "white".toList) ∧
      ∀ k, k ≠ "TILEID" → k ≠ "COLORKEY" → f.props k = lookup props k) es (newFeatures es props) := by
  unfold newFeatures
  rw [List.forall₂_map_right_iff, List.forall₂_same]
  intro e _
  refine ⟨(pick_part e.2).1, (pick_part e.2).2, rfl, rfl, rfl, fun k h1 h2 => ?_⟩
  unfold tileFeature PropMap.put
  simp only [h1, h2, if_false]
  exact copy_lookup props hp k

/-- **C77.** The tile of a feature can be recovered from its TILEID with `Strtile`, and different tiles of the map have different TILEIDs: the
features are in one-to-one correspondence with the entries. -/
theorem C77_tileid {F V : Type} (es : List (TileID × GeomData F)) (hd : (es.map Prod.fst).Nodup) (hv : ∀ e ∈ es, e.1.Valid)
    (props : List (String × PropVal V)) :
    (newFeatures es props).length = es.length ∧
    ∀ e ∈ es, ∃ f ∈ newFeatures es props, (∃ s, f.props "TILEID" = some (.str s) ∧ strtile s = some e.1) ∧
      ∀ e' ∈ es, (∃ s, (tileFeature (F := F) props e').props "TILEID" = some (.str s) ∧ strtile s = some e.1) → e' = e := by
  refine ⟨by simp [newFeatures], fun e he => ⟨tileFeature props e, List.mem_map_of_mem he, ⟨_, rfl, C07_strtile_tilestr _ (hv e he)⟩, ?_⟩⟩
  rintro e' he' ⟨s, h1, h2⟩
  have h3 : s = tilestr e'.1 := by
    have : (tileFeature (F := F) props e').props "TILEID" = some (.str (tilestr e'.1)) := rfl
    rw [this] at h1
    simpa using h1.symm
  rw [h3, C07_strtile_tilestr _ (hv e' he'), Option.some_inj] at h2
  exact List.inj_on_of_nodup_map hd he' he h2

/-- **C77.** `NewFeature` makes a feature without id, keeps the geometry and every property except COLORKEY, which becomes "white". -/
theorem C77_feature {F V : Type} (g : GeomData F) (props : List (String × PropVal V)) (hp : (props.map Prod.fst).Nodup) :
    (newFeature g props).hasId = false ∧ (newFeature g props).geom = g ∧ (newFeature g props).props "COLORKEY" = some (.str "white".toList) ∧
    ∀ k, k ≠ "COLORKEY" → (newFeature g props).props k = lookup props k := by
  refine ⟨rfl, rfl, rfl, fun k h => ?_⟩
  unfold newFeature PropMap.put
  simp only [h, if_false]
  exact copy_lookup props hp k

/-- **C77.** A user's own properties TILEID and COLORKEY are overwritten. -/
theorem C77_overwrites {F V : Type} (t : TileID) (g : GeomData F) (a b : PropVal V) :
    (tileFeature [("TILEID", a), ("COLORKEY", b)] (t, g)).props "TILEID" = some (.str (tilestr t)) ∧
    (tileFeature [("TILEID", a), ("COLORKEY", b)] (t, g)).props "COLORKEY" = some (.str "white".toList) := ⟨rfl, rfl⟩

example : ([("name", PropVal.str (V := Nat) "a".toList), ("height", .other 3)].map Prod.fst).Nodup := by decide

/-- Protocol number 1 stands for the LK tags and every other one for Mapbox's (so the round-trip theorems C30, C31, C72 apply to each). -/
theorem C77_proto (p : Int) : getProto p = if p = 1 then Mvt.lkProto else Mvt.mapboxProto := by
  unfold getProto
  split_ifs <;> first | rfl | omega

/-! ## closing rings -/

theorem trimRing_closed {P : Type} [DecidableEq P] {r r' : List P} (h : Mvt.trimRing r = some r') :
    r'.head? = r'.getLast? ∧ r'.head? = r.head? ∧ (r' = r ∨ ∃ p, r' = r ++ [p]) ∧ Mvt.trimRing r' = some r' := by
  cases r with
  | nil => simp [Mvt.trimRing] at h
  | cons p ps =>
    simp only [Mvt.trimRing, Option.some.injEq] at h
    by_cases hl : (p :: ps).getLast? = some p
    · rw [if_pos hl] at h
      subst h
      exact ⟨hl.symm ▸ rfl, rfl, Or.inl rfl, by rw [Mvt.trimRing, if_pos hl]⟩
    · rw [if_neg hl] at h
      subst h
      have e : (p :: ps ++ [p]).getLast? = some p := by rw [List.getLast?_append]; simp
      exact ⟨by rw [e]; rfl, rfl, Or.inr ⟨p, rfl⟩, by
        rw [show p :: ps ++ [p] = p :: (ps ++ [p]) from rfl] at e ⊢
        rw [Mvt.trimRing, if_pos e]⟩

theorem trimPolygon_forall {P : Type} [DecidableEq P] : ∀ (rs rs' : List (List P)),
    Mvt.trimPolygon rs = some rs' → List.Forall₂ (fun r r' => Mvt.trimRing r = some r') rs rs' := by
  intro rs
  induction rs with
  | nil => intro rs' h; simp [Mvt.trimPolygon] at h; subst h; exact .nil
  | cons r rs ih =>
    intro rs' h
    rw [Mvt.trimPolygon] at h
    cases h1 : Mvt.trimRing r with
    | none => rw [h1] at h; simp at h
    | some r' =>
      cases h2 : Mvt.trimPolygon rs with
      | none => rw [h1, h2] at h; simp at h
      | some t =>
        rw [h1, h2] at h
        simp only [Option.some.injEq] at h
        subst h
        exact .cons h1 (ih t h2)

theorem mapM_forall {A B : Type} (f : A → Option B) : ∀ (l : List A) (l' : List B), l.mapM f = some l' → List.Forall₂ (fun a b => f a = some b) l l' := by
  intro l
  induction l with
  | nil => intro l' h; simp at h; subst h; exact .nil
  | cons a l ih =>
    intro l' h
    rw [List.mapM_cons] at h
    cases h1 : f a with
    | none => rw [h1] at h; simp at h
    | some b =>
      cases h2 : l.mapM f with
      | none => rw [h1, h2] at h; simp at h
      | some t =>
        rw [h1, h2] at h
        simp at h
        subst h
        exact .cons h1 (ih t h2)

/-- **C77.** `TrimMultiPolygon(Float)` returns the same polygons and rings in the same order, each ring closed: a ring that ends where it starts is
unchanged, another one gets one position more. -/
theorem C77_closed {P : Type} [DecidableEq P] (ps ps' : List (List (List P))) (h : trimMultiPolygon ps = some ps') :
    List.Forall₂ (List.Forall₂ fun r r' => r'.head? = r'.getLast? ∧ r'.head? = r.head? ∧
      (if r.head? = r.getLast? then r' = r else ∃ p, r' = r ++ [p])) ps ps' := by
  refine (mapM_forall _ _ _ h).imp fun rs rs' h1 => (trimPolygon_forall _ _ h1).imp fun r r' h2 => ?_
  obtain ⟨a, b, c, -⟩ := trimRing_closed h2
  refine ⟨a, b, ?_⟩
  cases r with
  | nil => simp [Mvt.trimRing] at h2
  | cons p rs =>
    simp only [Mvt.trimRing, Option.some.injEq] at h2
    by_cases hl : (p :: rs).getLast? = some p
    · rw [if_pos hl] at h2
      rw [if_pos (by rw [hl]; rfl)]
      exact h2.symm
    · rw [if_neg hl] at h2
      rw [if_neg (fun e => hl (by rw [← e]; rfl))]
      exact ⟨p, h2.symm⟩

example : trimMultiPolygon [[[(0, 0), (4, 0), (4, 4)], [(1, 1), (2, 1), (1, 1)]]] =
    some [[[(0, 0), (4, 0), (4, 4), (0, 0)], [(1, 1), (2, 1), ((1 : Nat), (1 : Nat))]]] := by decide

/-! ## C78 -/

/-- Specification: the position of a point feature, or the centroid of a multi-point. -/
noncomputable def position : Reduce.Feat ℝ → Option (ℝ × ℝ)
  | .point p => some p
  | .multiPoint ps => some ((ps.map Prod.fst).sum / ps.length, (ps.map Prod.snd).sum / ps.length)
  | _ => none

/-- Specification: the cell of a position in the grid that divides the tile into 256 by 256 cells (and goes on outside of the tile). -/
noncomputable def gridCell (t : TileID) (p : ℝ × ℝ) : ℤ × ℤ := (⌊256 * (tilePos t p).1⌋, ⌊256 * (tilePos t p).2⌋)

theorem mean_sum (ps : List (ℝ × ℝ)) :
    Reduce.mean (fun n => (n : ℝ)) ps = ((ps.map Prod.fst).sum / ps.length, (ps.map Prod.snd).sum / ps.length) := by
  have key : ∀ (ps : List (ℝ × ℝ)) (s : ℝ × ℝ), ps.foldl (fun s p => (s.1 + p.1, s.2 + p.2)) s =
      (s.1 + (ps.map Prod.fst).sum, s.2 + (ps.map Prod.snd).sum) := by
    intro ps
    induction ps with
    | nil => intro s; simp
    | cons p ps ih => intro s; simp [ih, add_assoc]
  unfold Reduce.mean
  rw [key]
  simp

theorem cell_eq (t : TileID) (f : Reduce.Feat ℝ) :
    Reduce.cell (fun p : ℝ × ℝ => tile p.1 p.2 (reduceZoom t)) (fun n => (n : ℝ)) f =
      (position f).map fun p => tile p.1 p.2 (reduceZoom t) := by
  cases f with
  | point p => rfl
  | multiPoint ps => simp only [Reduce.cell, position, Option.map_some, mean_sum]
  | shape w h => rfl
  | other => rfl

theorem zoom_eq {t : TileID} (hz : t.Z ≤ 50) : reduceZoom t = ((t.Z + 8 : Nat) : Int) := by
  unfold reduceZoom
  have h : i64 (t.Z : Int) = t.Z := i64_of_lt (by constructor <;> omega)
  rw [h, i64_of_lt (by constructor <;> omega)]
  push_cast; rfl

theorem tile_cell {t : TileID} (hz : t.Z ≤ 50) {p : ℝ × ℝ} (h1 : -90 < p.2) (h2 : p.2 < 90) :
    tile p.1 p.2 (reduceZoom t) = ⟨256 * t.X + (gridCell t p).1, 256 * t.Y + (gridCell t p).2, u64 ((t.Z + 8 : Nat) : Int)⟩ := by
  rw [tile_Y_eq h1 h2, zoom_eq hz]
  have e : ∀ (a : ℝ) (k : ℤ), ⌊a * (2 : ℝ) ^ ((t.Z + 8 : Nat) : ℤ)⌋ = 256 * k + ⌊256 * (a * 2 ^ t.Z - k)⌋ := by
    intro a k
    have : a * (2 : ℝ) ^ ((t.Z + 8 : Nat) : ℤ) = 256 * (a * 2 ^ t.Z - k) + ((256 * k : ℤ) : ℝ) := by
      rw [zpow_natCast, pow_add]
      push_cast
      ring
    rw [this, Int.floor_add_intCast, add_comm]
  rw [e _ t.X, e _ t.Y]
  rfl

theorem same_cell {t : TileID} (hz : t.Z ≤ 50) {p q : ℝ × ℝ} (h1 : -90 < p.2 ∧ p.2 < 90) (h2 : -90 < q.2 ∧ q.2 < 90) :
    tile p.1 p.2 (reduceZoom t) = tile q.1 q.2 (reduceZoom t) ↔ gridCell t p = gridCell t q := by
  rw [tile_cell hz h1.1 h1.2, tile_cell hz h2.1 h2.2, TileID.mk.injEq, Prod.ext_iff]
  constructor
  · rintro ⟨a, b, -⟩; exact ⟨by omega, by omega⟩
  · rintro ⟨a, b⟩; exact ⟨by omega, by omega, rfl⟩

/-- **C78.** With the configuration `NewReduceConfig(t)` the filter keeps, of the point features (and multi-points, by their centroid), exactly
the first in each cell of the grid that divides tile `t` into 256 by 256 cells. -/
theorem C78_points (t : TileID) (hz : t.Z ≤ 50) (fs : List (Reduce.Feat ℝ)) (hlat : ∀ f ∈ fs, ∀ p, position f = some p → -90 < p.2 ∧ p.2 < 90)
    (i : Nat) (f : Reduce.Feat ℝ) (p : ℝ × ℝ) (hf : fs[i]? = some f) (hp : position f = some p) :
    ∃ kept f', (reduce t fs)[i]? = some (kept, f') ∧
      (kept = true ↔ ∀ j g q, j < i → fs[j]? = some g → position g = some q → gridCell t q ≠ gridCell t p) := by
  have hk : Reduce.cell (fun p : ℝ × ℝ => tile p.1 p.2 (reduceZoom t)) (fun n => (n : ℝ)) f = some (tile p.1 p.2 (reduceZoom t)) := by
    rw [cell_eq, hp]; rfl
  obtain ⟨kept, f', h1, h2⟩ := Reduce.C42_first_of_each_cell (fun p : ℝ × ℝ => tile p.1 p.2 (reduceZoom t)) (fun n => (n : ℝ)) fs
    (newReduceConfig t) rfl rfl i f _ hf hk
  refine ⟨kept, f', h1, h2.trans ?_⟩
  have hp' := hlat f (List.mem_of_getElem? hf) p hp
  constructor
  · intro h j g q hj hg hq e
    have := h j g hj hg
    rw [cell_eq, hq] at this
    exact this (congrArg some ((same_cell hz (hlat g (List.mem_of_getElem? hg) q hq) hp').2 e))
  · intro h j g hj hg e
    rw [cell_eq] at e
    obtain ⟨q, hq, e'⟩ := Option.map_eq_some_iff.1 e
    exact h j g q hj hg hq ((same_cell hz (hlat g (List.mem_of_getElem? hg) q hq) hp').1 e')

/-- **C78.** However many point features there are, at most 65536 of those inside the tile are kept. -/
theorem C78_count (t : TileID) (hz : t.Z ≤ 50) (fs : List (Reduce.Feat ℝ)) (hlat : ∀ f ∈ fs, ∀ p, position f = some p → -90 < p.2 ∧ p.2 < 90)
    (s : Finset Nat) (hs : ∀ i ∈ s, (∃ f', (reduce t fs)[i]? = some (true, f')) ∧ ∃ f p, fs[i]? = some f ∧ position f = some p ∧
      0 ≤ (tilePos t p).1 ∧ (tilePos t p).1 < 1 ∧ 0 ≤ (tilePos t p).2 ∧ (tilePos t p).2 < 1) :
    s.card ≤ 65536 := by
  classical
  have : Nonempty (Reduce.Feat ℝ) := ⟨.other⟩
  choose! f p hf hp h0 h1 h2 h3 using fun i (hi : i ∈ s) => (hs i hi).2
  have hcard : ((Finset.Ico (0 : ℤ) 256) ×ˢ (Finset.Ico (0 : ℤ) 256)).card = 65536 := by
    rw [Finset.card_product]; simp
  rw [← hcard]
  apply Finset.card_le_card_of_injOn (fun i => gridCell t (p i))
  · intro i hi
    have hi' : i ∈ s := by simpa using hi
    have a0 := h0 i hi'; have a1 := h1 i hi'; have a2 := h2 i hi'; have a3 := h3 i hi'
    simp only [gridCell, Finset.coe_product, Set.mem_prod, Finset.coe_Ico, Set.mem_Ico]
    refine ⟨⟨Int.floor_nonneg.2 (by linarith), Int.floor_lt.2 (by push_cast; linarith)⟩,
      ⟨Int.floor_nonneg.2 (by linarith), Int.floor_lt.2 (by push_cast; linarith)⟩⟩
  · have key : ∀ i ∈ s, ∀ j ∈ s, j < i → gridCell t (p i) = gridCell t (p j) → False := by
      intro i hi j hj hlt e
      obtain ⟨kept, f', r1, r2⟩ := C78_points t hz fs hlat i (f i) (p i) (hf i hi) (hp i hi)
      obtain ⟨f'', r3⟩ := (hs i hi).1
      rw [r3] at r1
      have : kept = true := by simpa using (congrArg (Option.map Prod.fst) r1).symm
      exact r2.1 this j (f j) (p j) hlt (hf j hj) (hp j hj) e.symm
    intro i hi j hj e
    have hi' : i ∈ s := by simpa using hi
    have hj' : j ∈ s := by simpa using hj
    rcases lt_trichotomy i j with h | h | h
    · exact (key j hj' i hi' h e.symm).elim
    · exact h
    · exact (key i hi' j hj' h e).elim

/-- **C78.** A line or polygon feature is kept exactly if its bounding box is wider than 0.5 % of the tile's width or higher than 0.5 % of the
tile's height (in degrees), wherever it stands in the sequence. -/
theorem C78_shapes (t : TileID) (fs : List (Reduce.Feat ℝ)) (i : Nat) (w h : ℝ) (hf : fs[i]? = some (.shape w h)) :
    ∃ kept, (reduce t fs)[i]? = some (kept, .shape w h) ∧
      (kept = true ↔ 0.005 * (360 / 2 ^ t.Z) < w ∨ 0.005 * ((bounds t).N - (bounds t).S) < h) := by
  have hcfg : ∀ (fs : List (Reduce.Feat ℝ)) (c : Reduce.Config ℝ) (i : Nat), c.operate = true →
      c.percent = 0.005 → c.deltaX = (bounds t).E - (bounds t).W → c.deltaY = (bounds t).N - (bounds t).S →
      fs[i]? = some (.shape w h) →
      ∃ kept, (Reduce.runFilter (fun p : ℝ × ℝ => tile p.1 p.2 (reduceZoom t)) (fun n => (n : ℝ)) fs c)[i]? = some (kept, .shape w h) ∧
        (kept = true ↔ 0.005 < w / ((bounds t).E - (bounds t).W) ∨ 0.005 < h / ((bounds t).N - (bounds t).S)) := by
    intro fs
    induction fs with
    | nil => intro c i _ _ _ _ h; simp at h
    | cons f fs ih =>
      intro c i ho hpc hx hy hi
      cases i with
      | zero =>
        simp only [List.getElem?_cons_zero, Option.some.injEq] at hi
        subst hi
        have e : (Reduce.filter (fun p : ℝ × ℝ => tile p.1 p.2 (reduceZoom t)) (fun n => (n : ℝ)) (.shape w h) c).2.1 = .shape w h := by
          simp [Reduce.filter, ho]
        refine ⟨(Reduce.filter (fun p : ℝ × ℝ => tile p.1 p.2 (reduceZoom t)) (fun n => (n : ℝ)) (.shape w h) c).1, ?_, ?_⟩
        · simp only [Reduce.runFilter, List.getElem?_cons_zero, e]
        simp only [Reduce.filter, ho, Bool.not_true, Bool.false_eq_true, if_false, hpc, hx, hy, Bool.or_eq_true, decide_eq_true_eq,
          gt_iff_lt]
      | succ i =>
        simp only [List.getElem?_cons_succ] at hi
        simp only [Reduce.runFilter, List.getElem?_cons_succ]
        have keep : ∀ c', (Reduce.filter (fun p : ℝ × ℝ => tile p.1 p.2 (reduceZoom t)) (fun n => (n : ℝ)) f c).2.2 = c' →
            c'.operate = true ∧ c'.percent = c.percent ∧ c'.deltaX = c.deltaX ∧ c'.deltaY = c.deltaY := by
          intro c' hc'
          subst hc'
          unfold Reduce.filter
          cases f <;> simp only [ho, Bool.not_true, Bool.false_eq_true, if_false] <;> (try split) <;> simp [ho]
        obtain ⟨k1, k2, k3, k4⟩ := keep _ rfl
        exact ih _ i k1 (k2.trans hpc) (k3.trans hx) (k4.trans hy) hi
  obtain ⟨kept, h1, h2⟩ := hcfg fs (newReduceConfig t) i rfl rfl rfl rfl hf
  refine ⟨kept, h1, h2.trans ?_⟩
  have hw : (bounds t).E - (bounds t).W = 360 / 2 ^ t.Z := by
    unfold bounds ul
    simp only
    push_cast
    ring
  have hh : 0 < (bounds t).N - (bounds t).S := sub_pos.2 (C04_positive_size t).2
  rw [hw, lt_div_iff₀ (by positivity), lt_div_iff₀ hh]

example : (⟨3, 2, 2⟩ : TileID).InGrid ∧ (⟨3, 2, 2⟩ : TileID).Z ≤ 50 ∧
    (∀ p, position (.multiPoint [(1, 2), (3, 40)]) = some p → -90 < p.2 ∧ p.2 < 90) := by
  refine ⟨⟨by norm_num, by norm_num, by norm_num, by norm_num⟩, by norm_num, fun p hp => ?_⟩
  simp only [position, Option.some.injEq] at hp
  subst hp
  norm_num

end Verif.MvtDef
