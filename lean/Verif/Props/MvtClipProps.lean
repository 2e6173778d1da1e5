import Verif.Spec.MvtClipProps
import Verif.Props.MvtClip

/-!
# C103: properties and ids through clipping
-/
namespace Verif.Clip
open Verif.Tid Verif.Go

theorem put_only {V : Type} (h : Heap V) (r : Nat) (v : V) : OnlyLabel h (h.put r "TILEID" v) r v := by
  refine ⟨by simp [Heap.put], fun r' k hk => ?_⟩
  unfold Heap.put
  rw [if_neg hk]

section
variable {F I V : Type} [Zero F] [Add F] [Sub F] [Mul F] [Div F] [LinearOrder F]

/-- **C103, a point and a tile.** A point of another tile gives the empty feature. A point of the tile gives the caller's own feature, id and
all, whose property map now has the tile under "TILEID"; if it has no property map, the call panics. -/
theorem C103_point_tile (tl : F × F → TileID) (ofTile : TileID → V) (h : Heap V) (f : Feat F I) (t : TileID) (p : F × F)
    (hf : f.geom = .point p) (ht : t.Valid) (hv : (tl p).Valid) :
    (tl p ≠ t → pointClipAboutTile tl ofTile h f t = some (h, ⟨.empty, none, none⟩)) ∧
    (tl p = t → f.props = none → pointClipAboutTile tl ofTile h f t = none) ∧
    (∀ r, tl p = t → f.props = some r → ∃ h', pointClipAboutTile tl ofTile h f t = some (h', f) ∧ OnlyLabel h h' r (ofTile t)) := by
  have key := C40_point_about_tile tl p t ht hv
  unfold pointClipAboutTile
  simp only [hf]
  refine ⟨fun hn => ?_, fun he hp => ?_, fun r he hp => ?_⟩
  · rw [if_neg (fun hx => hn (key.1 hx))]; rfl
  · rw [if_pos (key.2 he), hp]
  · rw [if_pos (key.2 he), hp]
    exact ⟨_, rfl, put_only h r _⟩

/-- **C103, a multi-point and a tile.** If the tile holds none of the points, the result is the empty feature. Otherwise it is a new feature
with the points of the tile in order, with the caller's own property map, which now has the tile under "TILEID", and without the id; if the
caller's feature has no property map, the call panics. -/
theorem C103_multi_tile (tl : F × F → TileID) (ofTile : TileID → V) (h : Heap V) (f : Feat F I) (t : TileID) (ps : List (F × F))
    (hf : f.geom = .multiPoint ps) (ht : t.Valid) (hv : ∀ p ∈ ps, (tl p).Valid) :
    ((∀ p ∈ ps, tl p ≠ t) → pointClipAboutTile tl ofTile h f t = some (h, ⟨.empty, none, none⟩)) ∧
    (∀ p ∈ ps, tl p = t → f.props = none → pointClipAboutTile tl ofTile h f t = none) ∧
    (∀ p ∈ ps, ∀ r, tl p = t → f.props = some r → ∃ h', pointClipAboutTile tl ofTile h f t =
      some (h', ⟨.multiPoint (ps.filter fun p => tl p = t), some r, none⟩) ∧ OnlyLabel h h' r (ofTile t)) := by
  have key := C40_about_tile tl ps t ht hv
  unfold pointClipAboutTile
  simp only [hf]
  have hne : ∀ p ∈ ps, tl p = t → (ps.filter fun p => tl p = t) ≠ [] := by
    intro p hp e h0
    have := List.filter_eq_nil_iff.1 h0 p hp
    simp [e] at this
  refine ⟨fun hn => ?_, fun p hp he hpr => ?_, fun p hp r he hpr => ?_⟩
  · rw [key, if_pos (List.filter_eq_nil_iff.2 fun p hp => by simpa using hn p hp)]; rfl
  · rw [key, if_neg (hne p hp he), hpr]
  · rw [key, if_neg (hne p hp he), hpr]
    exact ⟨_, rfl, put_only h r _⟩

/-- **C103, results change later.** Clip one multi-point to two tiles, one after the other: the first result then carries the second tile under
"TILEID", because both hold the caller's map. -/
theorem C103_relabels (tl : F × F → TileID) (ofTile : TileID → V) (h h1 h2 : Heap V) (f f1 f2 : Feat F I) (t1 t2 : TileID) (ps : List (F × F))
    (hf : f.geom = .multiPoint ps) (ht1 : t1.Valid) (ht2 : t2.Valid) (hv : ∀ p ∈ ps, (tl p).Valid)
    (hp1 : ∃ p ∈ ps, tl p = t1) (hp2 : ∃ p ∈ ps, tl p = t2)
    (h1e : pointClipAboutTile tl ofTile h f t1 = some (h1, f1)) (h2e : pointClipAboutTile tl ofTile h1 f t2 = some (h2, f2)) :
    ∃ r, f1.props = some r ∧ h1 r "TILEID" = some (ofTile t1) ∧ h2 r "TILEID" = some (ofTile t2) := by
  obtain ⟨p1, m1, e1⟩ := hp1
  obtain ⟨p2, m2, e2⟩ := hp2
  obtain ⟨-, a2, a3⟩ := C103_multi_tile tl ofTile h f t1 ps hf ht1 hv
  obtain ⟨-, b2, b3⟩ := C103_multi_tile tl ofTile h1 f t2 ps hf ht2 hv
  cases hpr : f.props with
  | none => rw [a2 p1 m1 e1 hpr] at h1e; cases h1e
  | some r =>
    obtain ⟨x, x1, x2⟩ := a3 p1 m1 r e1 hpr
    obtain ⟨y, y1, y2⟩ := b3 p2 m2 r e2 hpr
    rw [x1] at h1e
    rw [y1] at h2e
    cases h1e
    cases h2e
    exact ⟨r, rfl, x2.1, y2.1⟩

theorem labelLoop_some (ofTile : TileID → V) (r : Nat) : ∀ (es : List (TileID × List (F × F))) (h : Heap V), (∀ e ∈ es, e.2 ≠ []) →
    ∃ h', labelLoop (I := I) ofTile (some r) es h = some (h', es.map fun e => (e.1, ⟨.multiPoint e.2, some r, none⟩)) ∧
      ((es = [] ∧ h' = h) ∨ ∃ e ∈ es, OnlyLabel h h' r (ofTile e.1))
  | [], h, _ => ⟨h, rfl, .inl ⟨rfl, rfl⟩⟩
  | e :: es, h, hne => by
    obtain ⟨h', h1, h2⟩ := labelLoop_some ofTile r es (h.put r "TILEID" (ofTile e.1)) fun x hx => hne x (by simp [hx])
    refine ⟨h', ?_, .inr ?_⟩
    · rw [labelLoop, if_pos (List.length_pos_of_ne_nil (hne e (by simp)))]
      simp [h1]
    · rcases h2 with ⟨rfl, rfl⟩ | ⟨x, hx, g1, g2⟩
      · exact ⟨e, by simp, put_only _ _ _⟩
      · refine ⟨x, by simp [hx], g1, fun r' k hk => ?_⟩
        rw [g2 r' k hk]
        exact (put_only h r _).2 r' k hk

/-- **C103, points and a zoom.** `PointClipAboutZoom` (and `ClipFeature`) of a multi-point, in any order the map is ranged over: one feature
per tile with the tile's points in order, none with the caller's id, all with the caller's own property map, which now has one of the tiles
under "TILEID"; nothing else in any map changes. Without a property map the call panics as soon as there is a point. -/
theorem C103_multi_zoom (tl : F × F → TileID) (ofTile : TileID → V) (order : List (TileID × List (F × F)) → List (TileID × List (F × F)))
    (ho : ∀ m, (order m).Perm m) (h : Heap V) (f : Feat F I) (ps : List (F × F)) (hf : f.geom = .multiPoint ps) :
    (f.props = none → ps ≠ [] → pointClipAboutZoom tl ofTile order h f = none) ∧
    (ps = [] → pointClipAboutZoom tl ofTile order h f = some (h, [])) ∧
    ∀ r, f.props = some r → ps ≠ [] → ∃ h' m, pointClipAboutZoom tl ofTile order h f = some (h', m) ∧ (m.map (·.1)).Nodup ∧
      (∀ k e, (k, e) ∈ m ↔ (∃ p ∈ ps, tl p = k) ∧ e = ⟨.multiPoint (ps.filter fun p => tl p = k), some r, none⟩) ∧
      ∃ p ∈ ps, OnlyLabel h h' r (ofTile (tl p)) := by
  obtain ⟨g1, g2⟩ := groupPoints_spec tl ps
  have hp := ho (groupPoints tl ps)
  have hne : ∀ e ∈ order (groupPoints tl ps), e.2 ≠ [] := fun e he => ((g2 e.1 e.2).1 (hp.mem_iff.1 he)).1
  have hmem : ∀ p ∈ ps, (tl p, ps.filter fun q => tl q = tl p) ∈ order (groupPoints tl ps) := by
    intro p hpp
    refine hp.mem_iff.2 ((g2 _ _).2 ⟨?_, rfl⟩)
    intro h0
    have := List.filter_eq_nil_iff.1 h0 p hpp
    simp at this
  unfold pointClipAboutZoom
  simp only [hf]
  refine ⟨?_, ?_, ?_⟩
  · intro hpr h0
    obtain ⟨p, hpp⟩ := List.exists_mem_of_ne_nil ps h0
    rw [hpr]
    cases ho' : order (groupPoints tl ps) with
    | nil => have := hmem p hpp; rw [ho'] at this; cases this
    | cons e es =>
      rw [labelLoop, if_pos (List.length_pos_of_ne_nil (hne e (by rw [ho']; simp)))]
  · rintro rfl
    have : order (groupPoints tl []) = [] := by
      have := (ho (groupPoints tl [])).length_eq
      exact List.eq_nil_of_length_eq_zero (by rw [this]; rfl)
    rw [this]
    rfl
  · intro r hpr h0
    obtain ⟨h', h1, h2⟩ := labelLoop_some (I := I) ofTile r (order (groupPoints tl ps)) h hne
    rw [hpr]
    refine ⟨h', _, h1, ?_, ?_, ?_⟩
    · rw [List.map_map]
      exact ((hp.map (·.1)).nodup_iff).2 g1
    · intro k e
      rw [List.mem_map]
      constructor
      · rintro ⟨⟨k', l⟩, hx, he⟩
        cases he
        obtain ⟨q1, q2⟩ := (g2 k' l).1 (hp.mem_iff.1 hx)
        obtain ⟨p, hpl⟩ := List.exists_mem_of_ne_nil l q1
        rw [q2, List.mem_filter] at hpl
        exact ⟨⟨p, hpl.1, by simpa using hpl.2⟩, by rw [← q2]⟩
      · rintro ⟨⟨p, hpp, rfl⟩, rfl⟩
        exact ⟨_, hmem p hpp, rfl⟩
    · rcases h2 with ⟨e, -⟩ | ⟨e, he, hx⟩
      · obtain ⟨p, hpp⟩ := List.exists_mem_of_ne_nil ps h0
        have := hmem p hpp
        rw [e] at this
        cases this
      · obtain ⟨q1, q2⟩ := (g2 e.1 e.2).1 (hp.mem_iff.1 he)
        obtain ⟨p, hpl⟩ := List.exists_mem_of_ne_nil e.2 q1
        rw [q2, List.mem_filter] at hpl
        have ek : tl p = e.1 := by simpa using hpl.2
        exact ⟨p, hpl.1, by rw [ek]; exact hx⟩

/-- **C103, a point and a zoom.** One entry: the caller's own feature under its tile, the tile in the caller's map; a panic without a map. -/
theorem C103_point_zoom (tl : F × F → TileID) (ofTile : TileID → V) (order : List (TileID × List (F × F)) → List (TileID × List (F × F)))
    (h : Heap V) (f : Feat F I) (p : F × F) (hf : f.geom = .point p) :
    (f.props = none → pointClipAboutZoom tl ofTile order h f = none) ∧
    ∀ r, f.props = some r → ∃ h', pointClipAboutZoom tl ofTile order h f = some (h', [(tl p, f)]) ∧ OnlyLabel h h' r (ofTile (tl p)) := by
  unfold pointClipAboutZoom
  simp only [hf]
  refine ⟨fun hp => by rw [hp], fun r hp => ?_⟩
  rw [hp]
  exact ⟨_, rfl, put_only h r _⟩

/-- **C103, shapes and a tile.** `ClipTile` of a line or polygon: the geometry is the clipped one (C36-C39, C68), property map and id are the
feature's, and no map changes. For points it is `PointClipAboutTile`. -/
theorem C103_shape_tile (p7 : F) (tl : F × F → TileID) (ofTile : TileID → V) (h : Heap V) (f : Feat F I) (t : TileID) (bds : Box F) :
    (NotPoints f.geom → clipTileFeature p7 tl ofTile h f t bds = (clipTile p7 f.geom bds).map fun g => (h, ⟨g, f.props, f.id⟩)) ∧
    (¬ NotPoints f.geom → clipTileFeature p7 tl ofTile h f t bds = pointClipAboutTile tl ofTile h f t) := by
  obtain ⟨g, pr, i⟩ := f
  constructor
  · rintro ⟨h1, h2⟩
    have key : ∀ g' : Geom F, (do
        let g1 ← clip p7 g' bds.W bds.E .x
        let g2 ← clip p7 g1 bds.S bds.N .y
        let r ← makeFeat (I := I) g2 pr i
        return (h, r)) = (clipTile p7 g' bds).map fun g => (h, (⟨g, pr, i⟩ : Feat F I)) := by
      intro g'
      unfold clipTile makeFeat
      cases clip p7 g' bds.W bds.E .x with
      | none => rfl
      | some g1 =>
        simp only [Option.bind_eq_bind, Option.bind_some]
        cases clip p7 g1 bds.S bds.N .y with
        | none => rfl
        | some g2 =>
          simp only [Option.bind_some]
          cases makefeature g2 <;> rfl
    cases g with
    | point p => exact absurd rfl (h1 p)
    | multiPoint ps => exact absurd rfl (h2 ps)
    | _ => exact key _
  · intro hn
    cases g with
    | point p => rfl
    | multiPoint ps => rfl
    | _ => exact absurd ⟨fun _ => by simp, fun _ => by simp⟩ hn

end

/-! ### ClipFeature -/

variable {I V : Type}

/-- A geometry with the properties and the id of `f`. -/
def dec (f : Feat ℝ I) (p : TileID × Geom ℝ) : TileID × Feat ℝ I := (p.1, ⟨p.2, f.props, f.id⟩)

theorem featSet_dec (f : Feat ℝ I) (m : List (TileID × Geom ℝ)) (k : TileID) (g : Geom ℝ) :
    featSet (m.map (dec f)) k ⟨g, f.props, f.id⟩ = (mapSet m k g).map (dec f) := by
  unfold featSet mapSet
  rw [List.map_append, List.filter_map]
  rfl

theorem mapM_dec (f : Feat ℝ I) (l : List (TileID × Geom ℝ)) :
    (l.mapM fun p => (makeFeat (I := I) p.2 f.props f.id).map fun g => (p.1, g)) =
      (l.mapM fun p => (makefeature p.2).map fun g => (p.1, g)).map (List.map (dec f)) := by
  induction l with
  | nil => rfl
  | cons p l ih =>
    rw [List.mapM_cons, List.mapM_cons, ih]
    unfold makeFeat
    cases makefeature p.2 with
    | none => rfl
    | some g =>
      simp only [Option.map_some, Option.bind_eq_bind, Option.bind_some]
      cases (l.mapM fun p => (makefeature p.2).map fun g => (p.1, g)) <;> rfl

theorem childFeats_dec (f : Feat ℝ I) (k : TileID) (g : Geom ℝ) :
    childFeats f k ⟨g, f.props, f.id⟩ = (childEntries k g).map (List.map (dec f)) := by
  unfold childFeats childEntries
  split
  · rename_i t0 t1 t2 t3 e
    rw [e]
    simp only
    cases clipDownTile power7 g (tileBox k) (tileBox t0) (tileBox t1) (tileBox t2) (tileBox t3) with
    | none => rfl
    | some r =>
      simp only [Option.bind_eq_bind, Option.bind_some]
      exact mapM_dec f _
  · rename_i hx
    split
    · rename_i t0 t1 t2 t3 e
      exact absurd e (hx t0 t1 t2 t3)
    · rfl

theorem foldl_set_dec (f : Feat ℝ I) (cs : List (TileID × Geom ℝ)) : ∀ m : List (TileID × Geom ℝ),
    (cs.map (dec f)).foldl (fun m p => featSet m p.1 p.2) (m.map (dec f)) = (cs.foldl (fun m p => mapSet m p.1 p.2) m).map (dec f) := by
  induction cs with
  | nil => intro m; rfl
  | cons c cs ih =>
    intro m
    rw [List.map_cons, List.foldl_cons, List.foldl_cons, ← ih]
    congr 1
    exact featSet_dec f m c.1 c.2

theorem featStep_dec (f : Feat ℝ I) (keep : Bool) : ∀ (es m : List (TileID × Geom ℝ)) (last : Nat),
    featStep f keep (es.map (dec f)) (m.map (dec f)) last = (levelStep keep es m last).map fun x => (x.1.map (dec f), x.2)
  | [], m, last => rfl
  | (k, g) :: es, m, last => by
    have hk : dec f (k, g) = (k, ⟨g, f.props, f.id⟩) := rfl
    rw [List.map_cons, hk, featStep, levelStep, childFeats_dec]
    cases childEntries k g with
    | none => rfl
    | some cs =>
      simp only [Option.map_some, Option.bind_eq_bind, Option.bind_some]
      rw [foldl_set_dec, List.foldl_map]
      have hm : ∀ m' : List (TileID × Geom ℝ), (if keep = true then m'.map (dec f) else (m'.map (dec f)).filter (fun p => p.1 ≠ k)) =
          (if keep = true then m' else m'.filter (fun p => p.1 ≠ k)).map (dec f) := by
        intro m'
        cases keep with
        | true => rfl
        | false =>
          simp only [Bool.false_eq_true, if_false]
          rw [List.filter_map]
          rfl
      rw [hm, featStep_dec f keep es _ _]
      rfl

/-- The order a map of features is ranged over, as an order of the map of their geometries. -/
def orderOf (f : Feat ℝ I) (order : List (TileID × Feat ℝ I) → List (TileID × Feat ℝ I)) (m : List (TileID × Geom ℝ)) :
    List (TileID × Geom ℝ) := (order (m.map (dec f))).map fun p => (p.1, p.2.geom)

theorem dec_erase (f : Feat ℝ I) (l : List (TileID × Feat ℝ I)) (m : List (TileID × Geom ℝ)) (h : l.Perm (m.map (dec f))) :
    (l.map fun p => (p.1, p.2.geom)).map (dec f) = l := by
  rw [List.map_map]
  have : ∀ p ∈ l, (dec f ∘ fun p => (p.1, p.2.geom)) p = p := by
    intro p hp
    obtain ⟨q, -, rfl⟩ := List.mem_map.1 (h.mem_iff.1 hp)
    rfl
  rw [List.map_congr_left this, List.map_id']

theorem orderOf_perm (f : Feat ℝ I) (order : List (TileID × Feat ℝ I) → List (TileID × Feat ℝ I)) (ho : ∀ m, (order m).Perm m)
    (m : List (TileID × Geom ℝ)) : (orderOf f order m).Perm m := by
  unfold orderOf
  have := (ho (m.map (dec f))).map fun p => (p.1, p.2.geom)
  rw [List.map_map] at this
  have e : ((fun p : TileID × Feat ℝ I => (p.1, p.2.geom)) ∘ dec f) = id := rfl
  rw [e, List.map_id] at this
  exact this

theorem filter_order (f : Feat ℝ I) (order : List (TileID × Feat ℝ I) → List (TileID × Feat ℝ I)) (ho : ∀ m, (order m).Perm m)
    (m : List (TileID × Geom ℝ)) (q : TileID → Bool) :
    (order (m.map (dec f))).filter (fun p => q p.1) = ((orderOf f order m).filter fun p => q p.1).map (dec f) := by
  have e2 : (orderOf f order m).map (dec f) = order (m.map (dec f)) := dec_erase f _ m (ho _)
  rw [← e2, List.filter_map]
  rfl

theorem featLevels_dec (f : Feat ℝ I) (keep : Bool) (order : List (TileID × Feat ℝ I) → List (TileID × Feat ℝ I)) (ho : ∀ m, (order m).Perm m)
    (endzoom : Int) : ∀ (fuel : Nat) (cz : Int) (m : List (TileID × Geom ℝ)),
    featLevels f keep order endzoom fuel cz (m.map (dec f)) =
      (clipLevels keep (orderOf f order) endzoom fuel cz m).map (Option.map (List.map (dec f)))
  | 0, cz, m => by
    rw [featLevels, clipLevels]
    split <;> rfl
  | fuel + 1, cz, m => by
    rw [featLevels, clipLevels]
    by_cases hc : cz < endzoom
    · rw [if_pos hc, if_pos hc]
      have e : (order (m.map (dec f))).filter (fun p => i64 p.1.Z = cz) = ((orderOf f order m).filter fun p => i64 p.1.Z = cz).map (dec f) := by
        exact filter_order f order ho m fun t => decide (i64 t.Z = cz)
      simp only [e, featStep_dec]
      cases levelStep keep ((orderOf f order m).filter fun p => i64 p.1.Z = cz) m 0 with
      | none => rfl
      | some x =>
        simp only [Option.map_some]
        exact featLevels_dec f keep order ho endzoom fuel _ _
    · rw [if_neg hc, if_neg hc]
      rfl

/-- **C103, shapes and a zoom.** `ClipFeature` of a line or polygon, in any order the map is ranged over: the tiles and geometries are those of
C60, C68 and C84 (for some order), every feature has the property map and the id of the one that was clipped, and no map changes. For points
it is `PointClipAboutZoom`. -/
theorem C103_shape_zoom (ofTile : TileID → V) (orderP : List (TileID × List (ℝ × ℝ)) → List (TileID × List (ℝ × ℝ)))
    (order : List (TileID × Feat ℝ I) → List (TileID × Feat ℝ I)) (ho : ∀ m, (order m).Perm m) (fuel : Nat) (h : Heap V) (f : Feat ℝ I) (bb : Box ℝ)
    (endzoom : Int) (keep : Bool) :
    (NotPoints f.geom → ∃ order', (∀ m, (order' m).Perm m) ∧ clipFeatureFeature ofTile orderP order fuel h f bb endzoom keep =
      (clipFeature order' fuel f.geom bb endzoom keep).map (Option.map fun m => (h, m.map fun p => (p.1, ⟨p.2, f.props, f.id⟩)))) ∧
    (¬ NotPoints f.geom → clipFeatureFeature ofTile orderP order fuel h f bb endzoom keep =
      (pointClipAboutZoom (fun p => tile p.1 p.2 endzoom) ofTile orderP h f).map some) := by
  constructor
  · rintro ⟨h1, h2⟩
    refine ⟨orderOf f order, orderOf_perm f order ho, ?_⟩
    have key : (let (first, t) := getFirstZoom bb
        let m := [(t, f)]
        if first ≥ endzoom then
          match upTo endzoom fuel t with
          | none => some none
          | some t' =>
            match makeFeat f.geom f.props f.id with
            | none => none
            | some f' => some (some (h, featSet m t' f'))
        else (featLevels f keep order endzoom fuel first m).map fun r => r.map fun m => (h, m)) =
        (clipFeature (orderOf f order) fuel f.geom bb endzoom keep).map (Option.map fun m => (h, m.map (dec f))) := by
      unfold clipFeature
      generalize getFirstZoom bb = z
      obtain ⟨first, t⟩ := z
      have e0 : [(t, f)] = [(t, f.geom)].map (dec f) := rfl
      simp only
      by_cases hz : first ≥ endzoom
      · rw [if_pos hz, if_pos hz]
        cases upTo endzoom fuel t with
        | none => rfl
        | some t' =>
          simp only [makeFeat]
          cases makefeature f.geom with
          | none => rfl
          | some g' =>
            simp only [Option.map_some]
            rw [e0, featSet_dec]
      · rw [if_neg hz, if_neg hz, e0, featLevels_dec f keep order ho]
        generalize clipLevels keep (orderOf f order) endzoom fuel first [(t, f.geom)] = r
        cases r with
        | none => rfl
        | some r => cases r <;> rfl
    have e1 : (fun m : List (TileID × Geom ℝ) => (h, m.map fun p => (p.1, (⟨p.2, f.props, f.id⟩ : Feat ℝ I)))) = fun m => (h, m.map (dec f)) := rfl
    rw [e1, ← key]
    obtain ⟨g, pr, i⟩ := f
    cases g with
    | point p => exact absurd rfl (h1 p)
    | multiPoint ps => exact absurd rfl (h2 ps)
    | _ => rfl
  · intro hn
    obtain ⟨g, pr, i⟩ := f
    cases g with
    | point p => rfl
    | multiPoint ps => rfl
    | _ => exact absurd ⟨fun _ => by simp, fun _ => by simp⟩ hn

/-- **C103.** So in the map `ClipFeature` returns for a line or polygon, every feature has the caller's property map and id. -/
theorem C103_shape_zoom_entries (ofTile : TileID → V) (orderP : List (TileID × List (ℝ × ℝ)) → List (TileID × List (ℝ × ℝ)))
    (order : List (TileID × Feat ℝ I) → List (TileID × Feat ℝ I)) (ho : ∀ m, (order m).Perm m) (fuel : Nat) (h h' : Heap V) (f : Feat ℝ I) (bb : Box ℝ)
    (endzoom : Int) (keep : Bool) (hf : NotPoints f.geom) (m : List (TileID × Feat ℝ I))
    (hm : clipFeatureFeature ofTile orderP order fuel h f bb endzoom keep = some (some (h', m))) :
    h' = h ∧ ∀ k e, (k, e) ∈ m → e.props = f.props ∧ e.id = f.id := by
  obtain ⟨order', -, e⟩ := (C103_shape_zoom ofTile orderP order ho fuel h f bb endzoom keep).1 hf
  rw [hm] at e
  generalize clipFeature order' fuel f.geom bb endzoom keep = r at e
  cases r with
  | none => cases e
  | some r =>
    cases r with
    | none => cases e
    | some l =>
      simp only [Option.map_some, Option.some.injEq, Prod.mk.injEq] at e
      refine ⟨e.1, fun k x hx => ?_⟩
      rw [e.2, List.mem_map] at hx
      obtain ⟨q, -, hq⟩ := hx
      cases hq
      exact ⟨rfl, rfl⟩

/-- The hypotheses are met: three points in two tiles, a feature with an id and a map. -/
example : ∃ (h : Heap TileID) (m : List (TileID × Feat Int Nat)),
    pointClipAboutZoom (fun p => ⟨p.1 / 2, p.2, 1⟩) id id (fun _ _ => none) ⟨.multiPoint [(0, 0), (3, 0), (1, 0)], some 7, some 5⟩ = some (h, m) ∧
    m = [(⟨0, 0, 1⟩, ⟨.multiPoint [(0, 0), (1, 0)], some 7, none⟩), (⟨1, 0, 1⟩, ⟨.multiPoint [(3, 0)], some 7, none⟩)] ∧
    h 7 "TILEID" = some ⟨1, 0, 1⟩ := ⟨_, _, rfl, rfl, rfl⟩

end Verif.Clip
