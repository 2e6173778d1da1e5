import Verif.Spec.MvtLonLat
import Verif.Props.MvtGeom
import Verif.Props.MvtLayer

/-!
# The round trip of a tile of features, for any function from positions to grid points and back
-/
namespace Verif.MvtLL
open Verif.Go Verif.Pbf Verif.Mvt Verif.Mvt.Spec Verif.MvtProj Verif.Tid

/-! ### The writer -/

theorem makeLineFloat_eq {F : Type} (sp : F → Pt) (c : Mvt.Cursor) (l : List F) : makeLineFloat sp c l = makeLine c (l.map sp) := by
  cases l with
  | nil => rfl
  | cons p ps => simp only [makeLineFloat, List.map_cons, makeLine, List.length_map, List.foldl_map]

theorem makeMultiLineFloat_eq {F : Type} (sp : F → Pt) (c : Mvt.Cursor) (ls : List (List F)) :
    makeMultiLineFloat sp c ls = makeMultiLine c (ls.map (List.map sp)) := by
  induction ls generalizing c with
  | nil => rfl
  | cons l ls ih =>
    rw [makeMultiLineFloat, List.map_cons, makeMultiLine, makeLineFloat_eq]
    congr 1
    funext c
    exact ih c

theorem makePointFloat_eq {F : Type} (sp : F → Pt) (c : Mvt.Cursor) (p : F) : makePointFloat sp c p = makePoint c (sp p) := rfl

theorem makeMultiPointFloat_eq {F : Type} (sp : F → Pt) (c : Mvt.Cursor) (ps : List F) :
    makeMultiPointFloat sp c ps = makeMultiPoint c (ps.map sp) := by
  simp only [makeMultiPointFloat, makeMultiPoint, List.length_map, List.foldl_map]

/-! Words are 32-bit. -/

/-- All words of a cursor fit 32 bits. -/
def W32 (c : Mvt.Cursor) : Prop := ∀ w ∈ c.geometry, w < 4294967296

theorem cmdEnc_lt (id n : Nat) : cmdEnc id n < 4294967296 := by
  unfold cmdEnc
  have h1 : id &&& 7 < 2 ^ 32 := lt_of_le_of_lt Nat.and_le_right (by norm_num)
  have h2 : n * 8 % 4294967296 < 2 ^ 32 := Nat.mod_lt _ (by norm_num)
  exact Nat.or_lt_two_pow h1 h2

theorem W32.linePoint {c : Mvt.Cursor} (h : W32 c) (p : Pt) : W32 (linePoint c p) := by
  unfold Mvt.linePoint
  simp only
  split
  · intro w hw
    simp only [List.mem_append, List.mem_singleton] at hw
    rcases hw with (hw | rfl) | rfl
    · exact h w hw
    · exact paramEnc_lt _
    · exact paramEnc_lt _
  · exact h

theorem W32.foldl {c : Mvt.Cursor} (h : W32 c) (ps : List Pt) : W32 (ps.foldl Mvt.linePoint c) := by
  induction ps generalizing c with
  | nil => exact h
  | cons p ps ih => exact ih (h.linePoint p)

theorem W32.makeLine {c c' : Mvt.Cursor} (h : W32 c) (l : Line) (e : makeLine c l = some c') : W32 c' := by
  cases l with
  | nil => simp [Mvt.makeLine] at e
  | cons p ps =>
    simp only [Mvt.makeLine, Option.some.injEq] at e
    subst e
    have h1 : W32 { movePoint c p with geometry := (movePoint c p).geometry ++ [lineTo (ps.length % 4294967296)] } := by
      intro w hw
      simp only [movePoint, List.mem_append, List.mem_singleton] at hw
      rcases hw with ((((hw | rfl) | rfl) | rfl)) | rfl
      · exact h w hw
      · exact cmdEnc_lt _ _
      · exact paramEnc_lt _
      · exact paramEnc_lt _
      · exact cmdEnc_lt _ _
    intro w hw
    rcases List.mem_or_eq_of_mem_set hw with hw | rfl
    · exact h1.foldl ps w hw
    · exact cmdEnc_lt _ _

theorem W32.makeMultiLine {c c' : Mvt.Cursor} (h : W32 c) (ls : List Line) (e : makeMultiLine c ls = some c') : W32 c' := by
  induction ls generalizing c with
  | nil => simp only [Mvt.makeMultiLine, Option.some.injEq] at e; subst e; exact h
  | cons l ls ih =>
    rw [Mvt.makeMultiLine] at e
    cases h1 : Mvt.makeLine c l with
    | none => simp [h1] at e
    | some d => rw [h1, Option.bind_some] at e; exact ih (h.makeLine l h1) e

theorem W32.assertConvert {c c' : Mvt.Cursor} (h : W32 c) (o : Bool) (r : Line) (e : assertConvert c o r = some c') : W32 c' := by
  cases r with
  | nil => simp [Mvt.assertConvert] at e
  | cons p ps =>
    simp only [Mvt.assertConvert] at e
    generalize (if decide (signedArea2 (p :: ps) > 0) ≠ o then reverse (p :: ps) else p :: ps) = nl at e
    cases h1 : Mvt.makeLine ⟨[], c.last, 0⟩ nl with
    | none => simp [h1] at e
    | some d =>
      rw [h1, Option.map_some, Option.some.injEq] at e
      subst e
      have hd : W32 d := W32.makeLine (c := ⟨[], c.last, 0⟩) (by intro w hw; simp at hw) nl h1
      intro w hw
      simp only [List.mem_append, List.mem_singleton] at hw
      rcases hw with hw | hw | rfl
      · exact h w hw
      · exact hd w hw
      · exact cmdEnc_lt _ _

theorem W32.convertHoles {c c' : Mvt.Cursor} (h : W32 c) (rs : List Line) (e : convertHoles c rs = some c') : W32 c' := by
  induction rs generalizing c with
  | nil => simp only [Mvt.convertHoles, Option.some.injEq] at e; subst e; exact h
  | cons l ls ih =>
    rw [Mvt.convertHoles] at e
    cases h1 : Mvt.assertConvert c false l with
    | none => simp [h1] at e
    | some d => rw [h1, Option.bind_some] at e; exact ih (h.assertConvert false l h1) e

theorem W32.makePolygonFloat {F : Type} [DecidableEq F] {sp : F → Pt} {c c' : Mvt.Cursor} (h : W32 c) (rs : List (List F))
    (e : makePolygonFloat sp c rs = some c') : W32 c' := by
  unfold Mvt.makePolygonFloat at e
  rcases h0 : trimPolygon rs with _ | _ | ⟨r, rs'⟩
  · simp [h0] at e
  · simp [h0] at e
  · rw [h0] at e
    simp only at e
    cases h1 : Mvt.assertConvert c true (r.map sp) with
    | none => simp [h1] at e
    | some d => rw [h1, Option.bind_some] at e; exact (h.assertConvert true _ h1).convertHoles _ e

theorem W32.makeMultiPolygonFloat {F : Type} [DecidableEq F] {sp : F → Pt} {c c' : Mvt.Cursor} (h : W32 c) (ps : List (List (List F)))
    (e : makeMultiPolygonFloat sp c ps = some c') : W32 c' := by
  induction ps generalizing c with
  | nil => simp only [Mvt.makeMultiPolygonFloat, Option.some.injEq] at e; subst e; exact h
  | cons l ls ih =>
    rw [Mvt.makeMultiPolygonFloat] at e
    cases h1 : Mvt.makePolygonFloat sp c l with
    | none => simp [h1] at e
    | some d => rw [h1, Option.bind_some] at e; exact ih (h.makePolygonFloat l h1) e

theorem w32_new : W32 Mvt.Cursor.new := by intro w hw; simp [Mvt.Cursor.new] at hw

theorem geoWords_32 {F : Type} [DecidableEq F] (sp : F → Pt) (g : Geo F) (ty : Nat) (ws : List Nat) (h : geoWords sp g = some (ty, ws)) :
    ty ≤ 3 ∧ ∀ w ∈ ws, w < 4294967296 := by
  have hm : ∀ n, W32 { Mvt.Cursor.new with geometry := [moveTo n] } := by
    intro n w hw
    simp only [List.mem_singleton] at hw
    subst hw; exact cmdEnc_lt _ _
  cases g with
  | point p =>
    simp only [geoWords, Option.some.injEq, Prod.mk.injEq] at h
    obtain ⟨rfl, rfl⟩ := h
    exact ⟨by norm_num, (hm 1).linePoint _⟩
  | multiPoint ps =>
    simp only [geoWords, Option.some.injEq, Prod.mk.injEq] at h
    obtain ⟨rfl, rfl⟩ := h
    refine ⟨by norm_num, ?_⟩
    rw [makeMultiPointFloat_eq]
    exact (hm _).foldl _
  | lineString l =>
    simp only [geoWords, Option.map_eq_some_iff, Prod.mk.injEq] at h
    obtain ⟨c, h1, rfl, rfl⟩ := h
    rw [makeLineFloat_eq] at h1
    exact ⟨by norm_num, w32_new.makeLine _ h1⟩
  | multiLineString l =>
    simp only [geoWords, Option.map_eq_some_iff, Prod.mk.injEq] at h
    obtain ⟨c, h1, rfl, rfl⟩ := h
    rw [makeMultiLineFloat_eq] at h1
    exact ⟨by norm_num, w32_new.makeMultiLine _ h1⟩
  | polygon l =>
    simp only [geoWords, Option.map_eq_some_iff, Prod.mk.injEq] at h
    obtain ⟨c, h1, rfl, rfl⟩ := h
    exact ⟨by norm_num, w32_new.makePolygonFloat _ h1⟩
  | multiPolygon l =>
    simp only [geoWords, Option.map_eq_some_iff, Prod.mk.injEq] at h
    obtain ⟨c, h1, rfl, rfl⟩ := h
    exact ⟨by norm_num, w32_new.makeMultiPolygonFloat _ h1⟩

/-! ### One geometry -/

theorem asLines_out {G : Type} (pl : Pt → G) (ls : List Line) : ∃ o, projectGeomWith pl (asLines ls) = some o ∧
    ((∃ l, ls.map (List.map pl) = [l] ∧ o = .lineString l) ∨
      (ls.map (List.map pl)).length ≠ 1 ∧ o = .multiLineString (ls.map (List.map pl))) := by
  match ls with
  | [] => exact ⟨_, rfl, Or.inr ⟨by simp, rfl⟩⟩
  | [l] => exact ⟨_, rfl, Or.inl ⟨_, rfl, rfl⟩⟩
  | a :: b :: t' => exact ⟨_, rfl, Or.inr ⟨by simp, rfl⟩⟩

theorem asPolygons_out {G : Type} (pl : Pt → G) (ps : List (List Line)) : ∃ o, projectGeomWith pl (asPolygons ps) = some o ∧
    ((∃ p, ps.map (List.map (List.map pl)) = [p] ∧ o = .polygon p) ∨
      (ps.map (List.map (List.map pl))).length ≠ 1 ∧ o = .multiPolygon (ps.map (List.map (List.map pl)))) := by
  match ps with
  | [] => exact ⟨_, rfl, Or.inr ⟨by simp, rfl⟩⟩
  | [l] => exact ⟨_, rfl, Or.inl ⟨_, rfl, rfl⟩⟩
  | a :: b :: t' => exact ⟨_, rfl, Or.inr ⟨by simp, rfl⟩⟩

theorem mem_close {P : Type} [DecidableEq P] (r : List P) (x : P) (h : x ∈ close r) : x ∈ r := by
  unfold close at h
  split at h
  · exact h
  · cases r with
    | nil => simp at h
    | cons a l => simp at h ⊢; tauto

theorem geo_roundtrip {F G : Type} [DecidableEq F] (sp cl : F → Pt) (pl : Pt → G) (g : Geo F)
    (hsp : ∀ p ∈ positions g, sp p = cl p) (hcell : ∀ p ∈ positions g, IsI32 (cl p).1 ∧ IsI32 (cl p).2)
    (hok : GeoOkAt cl g) :
    ∃ ty ws gm o, geoWords sp g = some (ty, ws) ∧ ws ≠ [] ∧ loadGeometry ty ws = some gm ∧ projectGeomWith pl gm = some o ∧
      ReadsAt cl pl g o := by
  have hmap : ∀ l : List F, (∀ p ∈ l, p ∈ positions g) → l.map sp = l.map cl := fun l hl =>
    List.map_congr_left fun p hp => hsp p (hl p hp)
  have lines : ∀ ls : List Line, ls ≠ [] → (∀ l ∈ ls, l ≠ []) → (∀ l ∈ ls, l.length ≤ 2 ^ 29) →
      (∀ l ∈ ls, ∀ p ∈ l, |p.1| < 2 ^ 30 ∧ |p.2| < 2 ^ 30) →
      ∃ c, makeMultiLine Mvt.Cursor.new ls = some c ∧ c.geometry ≠ [] ∧ loadGeometry 2 c.geometry = some (asLines (ls.map noRepeats)) := by
    intro ls h0 h1 h2 h3
    obtain ⟨c, e1, e2⟩ := C25_lines_roundtrip ls h1 h2 (fun l hl p hp => by
      obtain ⟨a, b⟩ := h3 l hl p hp
      rw [abs_lt] at a b; omega)
    refine ⟨c, e1, ?_, e2⟩
    intro hc
    rw [hc] at e2
    have : loadGeometry 2 [] = some (.multiLineString []) := rfl
    rw [this] at e2
    match ls, h0, e2 with
    | [a], _, e2 => simp [asLines] at e2
    | a :: b :: l, _, e2 => simp [asLines] at e2
  have polys : ∀ ps : List (List (List F)), ps ≠ [] → (∀ p ∈ ps, ∀ r ∈ p, ∀ x ∈ r, x ∈ positions g) →
      (∀ p ∈ ps, p ≠ [] ∧ ∀ r ∈ p, r ≠ [] ∧ r.length < 2 ^ 22 ∧ AreaFits cl r) →
      (∀ p ∈ ps.tail, ∀ r ∈ p.head?, area2 ((close r).map cl) ≠ 0) →
      ∃ c grid, makeMultiPolygonFloat sp Mvt.Cursor.new ps = some c ∧ c.geometry ≠ [] ∧
        List.Forall₂ (List.Forall₂ SameRing) (ps.map (List.map fun r => (close r).map cl)) grid ∧ Oriented grid ∧
        loadGeometry 3 c.geometry = some (asPolygons grid) := by
    intro ps h0 hpos h1 h2
    have hm : ∀ p ∈ ps, ∀ r ∈ p, (close r).map sp = (close r).map cl := fun p hp r hr =>
      hmap _ fun x hx => hpos p hp r hr x (mem_close r x hx)
    obtain ⟨c, out, e1, e2, e3, e4⟩ := C27_polygon_general sp ps (fun p hp => (h1 p hp).1) (fun p hp r hr => ((h1 p hp).2 r hr).1)
      (fun p hp r hr x hx => by rw [hsp x (hpos p hp r hr x hx)]; exact ((h1 p hp).2 r hr).2.2.1 x hx)
      (fun p hp r hr x hx y hy => by
        rw [hsp x (hpos p hp r hr x hx), hsp y (hpos p hp r hr y hy)]; exact ((h1 p hp).2 r hr).2.2.2 x hx y hy)
      (fun p hp r hr => ((h1 p hp).2 r hr).2.1)
      (fun p hp r hr => by
        rw [hm p (List.mem_of_mem_tail hp) r (List.mem_of_mem_head? hr)]
        exact h2 p hp r hr)
    have hpm : (ps.map (List.map fun r => (close r).map sp)) = ps.map (List.map fun r => (close r).map cl) :=
      List.map_congr_left fun p hp => List.map_congr_left fun r hr => hm p hp r hr
    rw [hpm] at e2
    refine ⟨c, out, e1, ?_, e2, e3, e4⟩
    intro hc
    rw [hc] at e4
    have : loadGeometry 3 [] = some (.multiPolygon []) := rfl
    rw [this] at e4
    have hl := e2.length_eq
    match out, e4 with
    | [], _ => cases ps with
      | nil => exact h0 rfl
      | cons a b => simp at hl
    | [a], e4 => simp [asPolygons] at e4
    | a :: b :: l, e4 => simp [asPolygons] at e4
  cases g with
  | point p =>
    have hp := hsp p (by simp [positions])
    have hc := hcell p (by simp [positions])
    refine ⟨1, _, .point (cl p), .point (pl (cl p)), rfl, ?_, ?_, rfl, rfl⟩
    · rw [makePointFloat_eq, hp]
      intro h
      have := (C26_point_roundtrip _ hok hc.1 hc.2).1
      rw [h] at this
      simp [loadGeometry, rdLoop, buildGeom] at this
    · rw [makePointFloat_eq, hp]
      exact (C26_point_roundtrip _ hok hc.1 hc.2).1
  | multiPoint ps => exact hok.elim
  | lineString l =>
    obtain ⟨h1, h2, h3⟩ := hok
    obtain ⟨c, e1, e2, e3⟩ := lines [l.map cl] (by simp) (by simpa using h1) (by simpa using h2) (by
      intro l' hl' p hp
      simp only [List.mem_singleton] at hl'
      subst hl'
      obtain ⟨x, hx, rfl⟩ := List.mem_map.mp hp
      exact h3 x hx)
    have e1' : makeLine Mvt.Cursor.new (l.map cl) = some c := by
      rw [makeMultiLine] at e1
      cases h : makeLine Mvt.Cursor.new (l.map cl) with
      | none => simp [h] at e1
      | some d => simpa [h, makeMultiLine] using e1
    refine ⟨2, c.geometry, _, _, ?_, e2, e3, rfl, rfl⟩
    simp only [geoWords]
    rw [makeLineFloat_eq, hmap l (by simp [positions]), e1']
    rfl
  | multiLineString ls =>
    obtain ⟨h0, h1⟩ := hok
    have hm : ls.map (List.map sp) = ls.map (List.map cl) := List.map_congr_left fun l hl =>
      hmap l fun p hp => List.mem_flatten.mpr ⟨l, hl, hp⟩
    obtain ⟨c, e1, e2, e3⟩ := lines (ls.map (List.map cl)) (by simpa using h0)
      (by simpa using fun l hl => (h1 l hl).1) (by simpa using fun l hl => (h1 l hl).2.1) (by
      intro l' hl' p hp
      obtain ⟨l, hl, rfl⟩ := List.mem_map.mp hl'
      obtain ⟨x, hx, rfl⟩ := List.mem_map.mp hp
      exact (h1 l hl).2.2 x hx)
    obtain ⟨o, ho, hd⟩ := asLines_out pl ((ls.map (List.map cl)).map noRepeats)
    refine ⟨2, c.geometry, _, o, ?_, e2, e3, ho, ?_⟩
    · simp only [geoWords]
      rw [makeMultiLineFloat_eq, hm, e1]
      rfl
    · simp only [List.map_map] at hd
      exact hd
  | polygon rs =>
    obtain ⟨h0, h1⟩ := hok
    obtain ⟨c, grid, e1, e2, e3, e4, e5⟩ := polys [rs] (by simp) (by
      intro p hp r hr x hx
      simp only [List.mem_singleton] at hp
      subst hp
      exact List.mem_flatten.mpr ⟨r, hr, hx⟩) (by
      intro p hp
      simp only [List.mem_singleton] at hp
      subst hp
      exact ⟨h0, h1⟩) (by simp)
    have e1' : makePolygonFloat sp Mvt.Cursor.new rs = some c := by
      rw [makeMultiPolygonFloat] at e1
      cases h : makePolygonFloat sp Mvt.Cursor.new rs with
      | none => simp [h] at e1
      | some d => simpa [h, makeMultiPolygonFloat] using e1
    match grid, e3, e4, e5 with
    | [gr], .cons e3 .nil, e4, e5 =>
      refine ⟨3, c.geometry, _, _, ?_, e2, e5, rfl, gr, e3, e4, rfl⟩
      simp only [geoWords]
      rw [e1']
      rfl
  | multiPolygon ps =>
    obtain ⟨h0, h1, h2⟩ := hok
    obtain ⟨c, grid, e1, e2, e3, e4, e5⟩ := polys ps h0 (by
      intro p hp r hr x hx
      exact List.mem_flatten.mpr ⟨r, List.mem_flatten.mpr ⟨p, hp, hr⟩, hx⟩) h1 h2
    obtain ⟨o, ho, hd⟩ := asPolygons_out pl grid
    refine ⟨3, c.geometry, _, o, ?_, e2, e5, ho, grid, e3, e4, hd⟩
    simp only [geoWords]
    rw [e1]
    rfl

/-! ### Layers and tiles -/

/-- Coordinates from 0 to 32767 have products that fit. -/
theorem areaFits_inside {F : Type} (cl : F → Pt) (r : List F) (e : Int) (he : e ≤ 32767)
    (h : ∀ p, 0 ≤ (cl p).1 ∧ (cl p).1 ≤ e ∧ 0 ≤ (cl p).2 ∧ (cl p).2 ≤ e) : AreaFits cl r := by
  refine ⟨fun p _ => ?_, fun p _ q _ => ?_⟩
  · have := h p
    rw [abs_lt, abs_lt]; omega
  · have h1 := h p
    have h2 := h q
    have hx : |(cl p).1 - (cl q).1| ≤ 32767 := by rw [abs_le]; omega
    have hy : |(cl q).2 + (cl p).2| ≤ 65534 := by rw [abs_le]; omega
    rw [abs_mul]
    exact lt_of_le_of_lt (mul_le_mul hx hy (abs_nonneg _) (by norm_num)) (by norm_num)

/-- With all grid points inside a tile of extent at most 32767 the sizes are no condition. -/
theorem geoOk_inside {F : Type} [DecidableEq F] (cl : F → Pt) (g : Geo F) (e : Int) (he : e ≤ 32767)
    (h : ∀ p, 0 ≤ (cl p).1 ∧ (cl p).1 ≤ e ∧ 0 ≤ (cl p).2 ∧ (cl p).2 ≤ e) (hg : GeoShape cl g) : GeoOkAt cl g := by
  have hs : ∀ p, |(cl p).1| < 2 ^ 30 ∧ |(cl p).2| < 2 ^ 30 := fun p => by
    have := h p
    rw [abs_lt, abs_lt]; omega
  have hf := fun r => areaFits_inside cl r e he h
  cases g with
  | point p => exact hg
  | multiPoint ps => exact hg
  | lineString l => exact ⟨hg.1, hg.2, fun p _ => hs p⟩
  | multiLineString ls => exact ⟨hg.1, fun l hl => ⟨(hg.2 l hl).1, (hg.2 l hl).2, fun p _ => hs p⟩⟩
  | polygon rs => exact ⟨hg.1, fun r hr => ⟨(hg.2 r hr).1, (hg.2 r hr).2, hf r⟩⟩
  | multiPolygon ps =>
    exact ⟨hg.1, fun p hp => ⟨(hg.2.1 p hp).1, fun r hr => ⟨((hg.2.1 p hp).2 r hr).1, ((hg.2.1 p hp).2 r hr).2, hf r⟩⟩, hg.2.2⟩

theorem Config.ext_pos (c : Config) : 0 < c.ext := by unfold Config.ext; split <;> omega

/-- What the proofs need of a feature: the writer accepts its id and properties, `sp` moves its positions as `cl` does, to int32 grid points, and
its geometry survives. -/
structure FeatAt {F : Type} [DecidableEq F] (sp cl : F → Pt) (f : GeoFeatureOf F) : Prop where
  id : match f.id with | .uint _ => False | .int v => IsI64 v | _ => True
  props : ∀ k v, (k, v) ∈ f.props → ValOk v ∧ v ≠ .unhashable
  pos : ∀ p ∈ positions f.geo, sp p = cl p
  cell : ∀ p ∈ positions f.geo, IsI32 (cl p).1 ∧ IsI32 (cl p).2
  geo : GeoOkAt cl f.geo

/-- A layer of such features. -/
structure LayerAt {F : Type} [DecidableEq F] (sp cl : F → Pt) (c : Config) (fs : List (GeoFeatureOf F)) : Prop where
  extent : c.extent < 2 ^ 31
  version : c.version < 2 ^ 63
  feats : ∀ f ∈ fs, FeatAt sp cl f

/-- The call of `AddFeature` for a feature and the words of its geometry. -/
def asCall {F : Type} (f : GeoFeatureOf F) (w : Nat × List Nat) : Call := .add f.id w.1 w.2 f.props

theorem addFeatures_calls {F : Type} [DecidableEq F] (P : Proto) (sp : F → Pt) (fs : List (GeoFeatureOf F)) (ws : List (Nat × List Nat))
    (h : List.Forall₂ (fun f w => geoWords sp f.geo = some w) fs ws) (l : LayerWrite) :
    addFeatures P sp l fs = runCalls P l (List.zipWith asCall fs ws) := by
  induction h generalizing l with
  | nil => rfl
  | @cons f w fs ws h _ ih =>
    rw [addFeatures, h, Option.bind_some, List.zipWith_cons_cons, runCalls]
    show (addFeature P l f.id w.1 w.2 f.props).bind _ = (addFeature P l f.id w.1 w.2 f.props).bind _
    congr 1
    funext l'
    exact ih l'

theorem run_add_some {F : Type} [DecidableEq F] {sp cl : F → Pt} (P : Proto) (f : GeoFeatureOf F) (h : FeatAt sp cl f) (w : Nat × List Nat) (l : LayerWrite) :
    ∃ l', (asCall f w).run P l = some l' := by
  have hp : getTags l f.props ≠ none := by
    rw [Ne, getTags_none]
    rintro ⟨k, hk⟩
    exact (h.props k _ hk).2 rfl
  obtain ⟨r, hr⟩ := Option.ne_none_iff_exists'.mp hp
  have hid := h.id
  simp only [asCall, Call.run, addFeature]
  cases hi : f.id with
  | none => exact ⟨_, by simp only [Option.bind_some, hr, Option.map_some]; rfl⟩
  | int v => exact ⟨_, by simp only [Option.bind_some, hr, Option.map_some]; rfl⟩
  | uint v => rw [hi] at hid; exact hid.elim
  | other => exact ⟨_, by simp only [Option.bind_some, hr, Option.map_some]; rfl⟩

/-- The words of the features of a good layer. -/
theorem layer_words {F G : Type} [DecidableEq F] (sp cl : F → Pt) (pl : Pt → G) (c : Config) (fs : List (GeoFeatureOf F)) (h : LayerAt sp cl c fs) :
    ∃ ws, List.Forall₂ (fun f w => geoWords sp f.geo = some w ∧ w.2 ≠ [] ∧ w.1 ≤ 3 ∧ (∀ x ∈ w.2, x < 4294967296) ∧
      ∃ gm o, loadGeometry w.1 w.2 = some gm ∧ projectGeomWith pl gm = some o ∧
        ReadsAt cl pl f.geo o) fs ws := by
  have one : ∀ f ∈ fs, ∃ w : Nat × List Nat, geoWords sp f.geo = some w ∧ w.2 ≠ [] ∧ w.1 ≤ 3 ∧ (∀ x ∈ w.2, x < 4294967296) ∧
      ∃ gm o, loadGeometry w.1 w.2 = some gm ∧ projectGeomWith pl gm = some o ∧
        ReadsAt cl pl f.geo o := by
    intro f hf
    have ho := h.feats f hf
    obtain ⟨ty, ws, gm, o, h1, h2, h3, h4, h5⟩ := geo_roundtrip sp cl pl f.geo ho.pos ho.cell ho.geo
    obtain ⟨h6, h7⟩ := geoWords_32 _ _ ty ws h1
    exact ⟨(ty, ws), h1, h2, h6, h7, gm, o, h3, h4, h5⟩
  clear h
  induction fs with
  | nil => exact ⟨[], .nil⟩
  | cons f fs ih =>
    obtain ⟨w, hw⟩ := one f (by simp)
    obtain ⟨ws, hws⟩ := ih fun f hf => one f (by simp [hf])
    exact ⟨w :: ws, .cons hw hws⟩

theorem writes_at {F : Type} [DecidableEq F] (P : Proto) (nc : NumCodec) (sp cl : F → Pt) (c : Config) (fs : List (GeoFeatureOf F))
    (h : LayerAt sp cl c fs) : ∃ b, writeLayerWith P nc sp c fs = some b := by
  obtain ⟨ws, hws⟩ := layer_words sp cl (fun p : Pt => p) c fs h
  unfold writeLayerWith
  rw [addFeatures_calls P _ fs ws (hws.imp fun _ _ h => h.1)]
  have key : ∀ (fs : List (GeoFeatureOf F)), (∀ f ∈ fs, FeatAt sp cl f) → ∀ (ws : List (Nat × List Nat)) (l : LayerWrite),
      ∃ l', runCalls P l (List.zipWith asCall fs ws) = some l' := by
    intro fs
    induction fs with
    | nil => intro _ ws l; exact ⟨l, by simp [runCalls]⟩
    | cons f fs ih =>
      intro hf ws l
      cases ws with
      | nil => exact ⟨l, by simp [runCalls]⟩
      | cons w ws =>
        obtain ⟨l1, h1⟩ := run_add_some P f (hf f (by simp)) w l
        obtain ⟨l2, h2⟩ := ih (fun f hf' => hf f (by simp [hf'])) ws l1
        exact ⟨l2, by rw [List.zipWith_cons_cons, runCalls, h1, Option.bind_some, h2]⟩
  obtain ⟨l', hl'⟩ := key fs h.feats ws (LayerWrite.newConfig c.name c.extent c.version)
  exact ⟨_, by rw [hl']; rfl⟩

/-- `LayerWrite` and calls behind a written layer. -/
theorem written_of {F G : Type} [DecidableEq F] (P : Proto) (nc : NumCodec) (sp cl : F → Pt) (pl : Pt → G) (c : Config) (fs : List (GeoFeatureOf F))
    (h : LayerAt sp cl c fs) (b : Bytes) (hb : writeLayerWith P nc sp c fs = some b) (hlen : b.length ≤ 2 ^ 32) :
    ∃ l ws, b = flush P nc l ∧ Written P nc ⟨c.name, c.extent, c.version, List.zipWith asCall fs ws, false⟩ l ∧
      List.Forall₂ (fun f w => w.2 ≠ [] ∧ geoWords sp f.geo = some w ∧
        ∃ gm o, loadGeometry w.1 w.2 = some gm ∧ projectGeomWith pl gm = some o ∧
        ReadsAt cl pl f.geo o) fs ws := by
  obtain ⟨ws, hws⟩ := layer_words sp cl pl c fs h
  unfold writeLayerWith at hb
  rw [addFeatures_calls P _ fs ws (hws.imp fun _ _ h => h.1)] at hb
  cases hr : runCalls P (LayerWrite.newConfig c.name c.extent c.version) (List.zipWith asCall fs ws) with
  | none => simp [hr] at hb
  | some l =>
    rw [hr, Option.map_some, Option.some.injEq] at hb
    refine ⟨l, ws, hb.symm, ?_, hws.imp fun _ _ h => ⟨h.2.1, h.1, h.2.2.2.2⟩⟩
    have hbody : (layerBody P nc l).length < b.length := by
      rw [← hb]; exact encBytes_length _ _
    have hb2 := layerBody_length P nc l
    have hk := flatMap_length_ge (encBytes P.keys) l.keys (fun k _ => by have := encBytes_length P.keys k; omega)
    have hv := flatMap_length_ge (encValue P nc) l.values (fun v _ => by
      unfold encValue
      have := encBytes_length P.values
      first | exact Nat.one_le_iff_ne_zero.mpr (by simp [encBytes]) | simp)
    have h1 := h.extent
    have h2 := h.version
    refine ⟨hr, ?_, by omega, by omega, by omega, by show c.extent < _; omega, by show c.version < _; omega⟩
    intro call hcall
    obtain ⟨i, hi⟩ := List.getElem?_of_mem hcall
    rw [List.getElem?_zipWith_eq_some] at hi
    obtain ⟨f, w, hf, hw, rfl⟩ := hi
    have hfm : f ∈ fs := List.mem_of_getElem? hf
    have ho := h.feats f hfm
    have hrel : w.1 ≤ 3 ∧ ∀ x ∈ w.2, x < 4294967296 := by
      obtain ⟨hi1, e1⟩ := List.getElem?_eq_some_iff.mp hf
      obtain ⟨hi2, e2⟩ := List.getElem?_eq_some_iff.mp hw
      have := hws.get (i := i) hi1 hi2
      simp only [List.get_eq_getElem, e1, e2] at this
      exact ⟨this.2.2.1, this.2.2.2.1⟩
    refine ⟨?_, ?_, ?_, ?_⟩
    · have := ho.id
      simp only [asCall]
      cases hi : f.id with
      | int v => rw [hi] at this; exact this
      | _ => trivial
    · show w.1 < 128; omega
    · exact hrel.2
    · intro k v hkv; exact (ho.props k v hkv).1

theorem zipWith_adds {F : Type} (fs : List (GeoFeatureOf F)) (ws : List (Nat × List Nat)) :
    (List.zipWith asCall fs ws).filter (·.isAdd) = List.zipWith asCall fs ws := by
  rw [List.filter_eq_self]
  intro c hc
  obtain ⟨i, hi⟩ := List.getElem?_of_mem hc
  rw [List.getElem?_zipWith_eq_some] at hi
  obtain ⟨f, w, _, _, rfl⟩ := hi
  rfl

theorem features_is {F G : Type} [DecidableEq F] (sp cl : F → Pt) (pl : Int → Pt → G) (P : Proto) (b : Bytes) (late : Bool) (n : Nat) (c : Config)
    (L : Layer) (hL : L.extent = (c.ext : Int)) (fs : List (GeoFeatureOf F)) (ws : List (Nat × List Nat))
    (hws : List.Forall₂ (fun f w => w.2 ≠ [] ∧ geoWords sp f.geo = some w ∧
        ∃ gm o, loadGeometry w.1 w.2 = some gm ∧ projectGeomWith (pl c.ext) gm = some o ∧
        ReadsAt cl (pl c.ext) f.geo o) fs ws) (qs : List Int)
    (h : List.Forall₂ (fun c p => ∃ f, readFeature P b late n L p = .ok f ∧ f.extent = L.extent ∧ FeatureOf b c f)
      (List.zipWith asCall fs ws) qs) : List.Forall₂ (FeatureAt P b late n L (toGeoJSONWith pl b) (ReadsAt cl (pl c.ext))) fs qs := by
  induction hws generalizing qs with
  | nil => cases h; exact .nil
  | @cons f w fs ws hw _ ih =>
    rw [List.zipWith_cons_cons] at h
    cases h with
    | @cons _ q _ qs h1 h2 =>
    refine .cons ?_ (ih qs h2)
    obtain ⟨F, r1, r2, r3⟩ := h1
    obtain ⟨hne, _, gm, o, g1, g2, g3⟩ := hw
    refine ⟨F, F.props, o, r1, ?_, r3.props, g3⟩
    have hraw := r3.geometry hne
    have hty := r3.type
    have hid : F.id = expId f.id := by
      rw [r3.id]
      simp only [asCall]
      cases f.id <;> rfl
    have hlg : loadGeom b F = some gm := by
      unfold loadGeom
      rw [hraw, Option.bind_some, hty]
      exact g1
    unfold toGeoJSONWith
    rw [hlg, Option.bind_some, r2, hL, g2, hid]
    rfl

/-- The round trip of a tile, for any functions to (`sp`, as `cl`) and from (`pl`) the grid. -/
theorem tile_at {F G : Type} [DecidableEq F] (P : Proto) (hP : P = mapboxProto ∨ P = lkProto) (nc : NumCodec) (hnc : nc.Law)
    (sp cl : Config → F → Pt) (pl : Config → Int → Pt → G)
    (ls : List (Config × List (GeoFeatureOf F))) (hls : ∀ x ∈ ls, LayerAt (sp x.1) (cl x.1) x.1 x.2) (bs : List Bytes)
    (hb : List.Forall₂ (fun x b => writeLayerWith P nc (sp x.1) x.1 x.2 = some b) ls bs) (hlen : bs.flatten.length ≤ 2 ^ 32) (late : Bool)
    (hlate : late = true ∨ ∀ x ∈ ls, ∀ f ∈ x.2, ∀ w, geoWords (sp x.1) f.geo = some w → 8 ≤ w.2.length)
    (n : Nat) (hn : bs.flatten.length + 5 < n) :
    ∃ T : TS, newTile P nc bs.flatten n = .ok T ∧
      List.Forall₂ (fun (x : Config × List (GeoFeatureOf F)) L => L.name = x.1.name ∧ L.extent = (x.1.ext : Int) ∧
        L.version = (if x.1.version = 0 then 2 else (x.1.version : Int)) ∧
        List.Forall₂ (FeatureAt P bs.flatten late n L (toGeoJSONWith (pl x.1) bs.flatten) (ReadsAt (cl x.1) (pl x.1 x.1.ext))) x.2 L.features) ls T.layers := by
  -- the layers behind the bytes
  have hex : ∃ (wls : List (List (Nat × List Nat) × LayerWrite)), bs = wls.map (fun y => flush P nc y.2) ∧
      List.Forall₂ (fun (x : Config × List (GeoFeatureOf F)) (y : List (Nat × List Nat) × LayerWrite) =>
        Written P nc ⟨x.1.name, x.1.extent, x.1.version, List.zipWith asCall x.2 y.1, false⟩ y.2 ∧
        List.Forall₂ (fun f w => w.2 ≠ [] ∧ geoWords (sp x.1) f.geo = some w ∧
          ∃ gm o, loadGeometry w.1 w.2 = some gm ∧ projectGeomWith (pl x.1 x.1.ext) gm = some o ∧
          ReadsAt (cl x.1) (pl x.1 x.1.ext) f.geo o) x.2 y.1) ls wls := by
    clear hlate hn
    induction hb with
    | nil => exact ⟨[], rfl, .nil⟩
    | @cons x b ls bs h _ ih =>
      rw [List.flatten_cons, List.length_append] at hlen
      obtain ⟨l, ws, e1, e2, e3⟩ := written_of P nc (sp x.1) (cl x.1) (pl x.1 x.1.ext) x.1 x.2 (hls x (by simp)) b h (by omega)
      obtain ⟨wls, e4, e5⟩ := ih (fun y hy => hls y (by simp [hy])) (by omega)
      exact ⟨(ws, l) :: wls, by rw [List.map_cons, ← e1, e4], .cons ⟨e2, e3⟩ e5⟩
  obtain ⟨wls, rfl, hrel⟩ := hex
  have hflat : (wls.map (fun y => flush P nc y.2)).flatten = (wls.map (·.2)).flatMap (flush P nc) := by
    rw [List.flatMap_def, List.map_map]; rfl
  have hn' : ((wls.map (·.2)).flatMap (flush P nc)).length + 5 < n := by rw [← hflat]; exact hn
  rw [hflat]
  clear hn hlen hb hls
  let ins : List LayerIn := List.zipWith (fun x y => ⟨x.1.name, x.1.extent, x.1.version, List.zipWith asCall x.2 y.1, false⟩) ls wls
  have hW : List.Forall₂ (Written P nc) ins (wls.map (·.2)) := by
    clear hlate hflat hn'
    induction hrel with
    | nil => exact .nil
    | cons h _ ih => exact .cons h.1 ih
  have hl8 : late = true ∨ ∀ w ∈ ins, ∀ c ∈ w.calls, c.isAdd = true → 8 ≤ c.expGeom.length := by
    rcases hlate with h | h
    · exact Or.inl h
    · right
      clear hflat hW hn'
      induction hrel with
      | nil => intro w hw; simp [ins] at hw
      | @cons x y ls wls hxy _ ih =>
        intro w hw c hc _
        simp only [ins, List.zipWith_cons_cons, List.mem_cons] at hw
        rcases hw with rfl | hw
        · obtain ⟨i, hi⟩ := List.getElem?_of_mem hc
          rw [List.getElem?_zipWith_eq_some] at hi
          obtain ⟨f, v, hf, hv, rfl⟩ := hi
          obtain ⟨hi1, e1⟩ := List.getElem?_eq_some_iff.mp hf
          obtain ⟨hi2, e2⟩ := List.getElem?_eq_some_iff.mp hv
          have := hxy.2.get (i := i) hi1 hi2
          simp only [List.get_eq_getElem, e1, e2] at this
          exact h x (by simp) f (List.mem_of_getElem? hf) v this.2.1
        · exact ih (fun x hx => h x (by simp [hx])) w hw c hc (by assumption)
  obtain ⟨T, h1, hp1, hp2, h2⟩ := C30_tile_roundtrip P hP nc hnc ins (wls.map (·.2)) hW late hl8 n hn'
  refine ⟨T, h1, ?_⟩
  generalize (wls.map (·.2)).flatMap (flush P nc) = B at h2 ⊢
  generalize T.layers = Ls at h2 ⊢
  clear hlate hflat hW hl8 h1 hn' hp1 hp2
  induction hrel generalizing Ls with
  | nil =>
    simp only [ins, List.zipWith_nil_left] at h2
    cases h2; exact .nil
  | @cons x y ls wls hxy _ ih =>
    simp only [ins, List.zipWith_cons_cons] at h2
    cases h2 with
    | @cons _ L _ Ls hL h2 =>
    refine .cons ?_ (ih Ls h2)
    have hE : L.extent = (x.1.ext : Int) := by
      rw [hL.extent]; unfold Config.ext LayerIn.wantExtent
      by_cases h0 : x.1.extent = 0 <;> simp [h0]
    refine ⟨hL.name, hE, ?_, ?_⟩
    · rw [hL.version]; unfold LayerIn.wantVersion
      by_cases h0 : x.1.version = 0 <;> simp [h0]
    · have := hL.features
      simp only [zipWith_adds] at this
      exact features_is (sp x.1) (cl x.1) (pl x.1) P B late n x.1 L hE x.2 y.1 hxy.2 _ this


end Verif.MvtLL
