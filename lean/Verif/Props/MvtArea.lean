import Verif.Proof.MvtArea
import Verif.Props.MvtClip

/-!
# C68: clipping polygons keeps their inside
-/
namespace Verif.Clip
set_option linter.unusedSectionVars false

variable {F : Type} [Field F] [LinearOrder F] [IsStrictOrderedRing F]

/-- C68: a closed ring clipped to a slab has the same inside there, for every point strictly within the slab, by the even-odd rule.
(No condition on the ring: it may cross itself, and the point may lie on it.) -/
theorem C68_ring (g : List (F × F)) (hg : g ≠ []) (hc : g.head? = g.getLast?) (ax : Axis) (k1 k2 : F) (p : F × F)
    (h1 : k1 < coord ax p) (h2 : coord ax p < k2) :
    ∃ out, clipLine g k1 k2 ax true = some out ∧ inside ax p out = inside ax p [g] := by
  cases g with
  | nil => exact absurd rfl hg
  | cons a rest =>
    have hv : (a :: rest).getLast? = some a := by rw [← hc]; rfl
    obtain ⟨out, ho, hpar, _⟩ := clipLoop_parity ax a p ⟨h1, h2⟩ rest a ⟨[], []⟩ hv (by intro z hz; simp at hz)
      (by
        intro z hz
        by_cases ha : InSlab ax k1 k2 a
        · rw [cur_in ha] at hz
          simp at hz; subst hz
          exact ⟨fun _ => rfl, fun h => absurd ha.1 (not_le.2 h), fun h => absurd ha.2 (not_le.2 h)⟩
        · rw [cur_out ha] at hz; simp at hz)
      (by intro z hz; simp at hz) (fun _ => .inl rfl) rfl
    refine ⟨out, ho, ?_⟩
    have := (closed_of_closed (a :: rest) a rfl hv ax p).1
    rw [hpar]
    simp only [inside, List.foldr_cons, List.foldr_nil, this]
    by_cases ha : InSlab ax k1 k2 a
    · simp [cur_in ha, parity]
    · simp [cur_out ha, parity]

/-- A triangle clipped to 1 ≤ x ≤ 3: a point inside it and one outside it stay so; the result has three points and is not closed. -/
example : clipLine [((0 : ℚ), (0 : ℚ)), (2, 4), (0, 4), (0, 0)] 1 3 .x true = some [[(1, 2), (2, 4), (1, 4)]] ∧
    inside .x (5 / 4, 7 / 2) [[((0 : ℚ), (0 : ℚ)), (2, 4), (0, 4), (0, 0)]] = true ∧
    inside .x (5 / 4, 7 / 2) [[((1 : ℚ), (2 : ℚ)), (2, 4), (1, 4)]] = true ∧
    inside .x (5 / 4, 1) [[((0 : ℚ), (0 : ℚ)), (2, 4), (0, 4), (0, 0)]] = false ∧
    inside .x (5 / 4, 1) [[((1 : ℚ), (2 : ℚ)), (2, 4), (1, 4)]] = false := by decide +kernel

/-- The clipping of a polygon along one axis, closing the rings first (mvt/clip.go:178-189, 221-225). -/
theorem clipRings_area (p7 : F) (hp7 : 0 ≤ p7) (ax : Axis) {k1 k2 m : F} (hm : 0 ≤ m) (p : F × F) (hp : DeepIn ax k1 k2 m p)
    (rings : List (List (F × F))) (hne : ∀ r ∈ rings, r ≠ []) (hfar : FarFrom (m + p7) rings p) :
    ∃ mid out, lintPolygon p7 rings = some mid ∧ clipLines mid k1 k2 ax true = some out ∧ inside ax p out = inside ax p rings ∧
      FarFrom m out p ∧ ∀ r ∈ out, r ≠ [] := by
  induction rings with
  | nil => exact ⟨[], [], rfl, rfl, rfl, by intro r hr; simp at hr, by simp⟩
  | cons r rings ih =>
    obtain ⟨s, h1, h2, h3, h4, h5⟩ := lintRing_area p7 hp7 m hm r (hne r (by simp)) p (hfar r (by simp))
    obtain ⟨o, g1, g2, g3⟩ := clipLine_area ax hm p hp s h2 h3 h5
    obtain ⟨mid, out, i1, i2, i3, i4, i5⟩ := ih (fun r hr => hne r (by simp [hr])) (fun r hr => hfar r (by simp [hr]))
    refine ⟨s :: mid, o ++ out, ?_, ?_, ?_, ?_, ?_⟩
    · unfold lintPolygon at i1 ⊢
      simp [List.mapM_cons, h1, i1]
    · unfold clipLines at i2 ⊢
      rw [Option.map_eq_some_iff] at i2
      obtain ⟨os, j1, j2⟩ := i2
      simp [List.mapM_cons, g1, j1, j2]
    · rw [inside_append, g2, i3, h4]; rfl
    · intro r hr
      rcases List.mem_append.1 hr with hr | hr
      · exact g3 r hr
      · exact i4 r hr
    · intro r hr
      rcases List.mem_append.1 hr with hr | hr
      · rintro rfl
        exact ((C38_one_closed_ring s k1 k2 ax o g1).2 [] hr).1 rfl
      · exact i5 r hr

/-- Several polygons along one axis. -/
theorem clipPolys_area (p7 : F) (hp7 : 0 ≤ p7) (ax : Axis) {k1 k2 m : F} (hm : 0 ≤ m) (p : F × F) (hp : DeepIn ax k1 k2 m p)
    (ps : List (List (List (F × F)))) (hne : ∀ q ∈ ps, ∀ r ∈ q, r ≠ []) (hfar : ∀ q ∈ ps, FarFrom (m + p7) q p) :
    ∃ mid out, ps.mapM (lintPolygon p7) = some mid ∧ clipMultiPolygon mid k1 k2 ax true = some out ∧
      insideAny ax p out = insideAny ax p ps ∧ (∀ q ∈ out, FarFrom m q p) ∧ ∀ q ∈ out, ∀ r ∈ q, r ≠ [] := by
  induction ps with
  | nil => exact ⟨[], [], rfl, rfl, rfl, by simp, by simp⟩
  | cons r ps ih =>
    obtain ⟨s, o, h1, h2, h3, h4, h5⟩ := clipRings_area p7 hp7 ax hm p hp r (hne r (by simp)) (hfar r (by simp))
    obtain ⟨mid, out, i1, i2, i3, i4, i5⟩ := ih (fun r hr => hne r (by simp [hr])) (fun r hr => hfar r (by simp [hr]))
    refine ⟨s :: mid, if o.length > 0 then o :: out else out, ?_, ?_, ?_, ?_, ?_⟩
    · simp [List.mapM_cons, h1, i1]
    · unfold clipMultiPolygon at i2 ⊢
      rw [Option.map_eq_some_iff] at i2
      obtain ⟨os, j1, j2⟩ := i2
      simp [List.mapM_cons, h2, j1, ← j2, List.filter_cons]
    · have e : insideAny ax p (r :: ps) = (inside ax p o || insideAny ax p out) := by
        rw [h3, i3]; simp [insideAny]
      rw [e]
      split
      · simp [insideAny]
      · rename_i h
        have : o = [] := by simpa using h
        rw [this]; simp [inside]
    · intro q hq
      split at hq
      · rcases List.mem_cons.1 hq with rfl | hq
        · exact h4
        · exact i4 q hq
      · exact i4 q hq
    · intro q hq
      split at hq
      · rcases List.mem_cons.1 hq with rfl | hq
        · exact h5
        · exact i5 q hq
      · exact i5 q hq

theorem polyResult_area (ps : List (List (List (F × F)))) (h : ∀ q ∈ ps, ∀ r ∈ q, r ≠ []) :
    (polyResult ps).IsArea ∧ (∀ ax p, (polyResult ps).covers ax p = insideAny ax p ps) ∧ (polyResult ps).rings = ps.flatten := by
  unfold polyResult
  split
  · exact ⟨h _ (by simp), fun ax p => by simp [Geom.covers, insideAny], by simp [Geom.rings]⟩
  · exact ⟨h, fun ax p => rfl, rfl⟩

/-- One axis of `clip` on polygons. -/
theorem clip_area (p7 : F) (hp7 : 0 ≤ p7) (ax : Axis) {k1 k2 m : F} (hm : 0 ≤ m) (p : F × F) (hp : DeepIn ax k1 k2 m p)
    (g : Geom F) (hg : g.IsArea) (hfar : FarFrom (m + p7) g.rings p) :
    ∃ g', clip p7 g k1 k2 ax = some g' ∧ g'.IsArea ∧ g'.covers ax p = g.covers ax p ∧ FarFrom m g'.rings p := by
  unfold Geom.IsArea at hg
  split at hg
  · rename_i r
    obtain ⟨mid, out, h1, h2, h3, h4, h5⟩ := clipRings_area p7 hp7 ax hm p hp r hg hfar
    refine ⟨.polygon out, by simp [clip, h1, h2], h5, h3, h4⟩
  · rename_i ps
    obtain ⟨mid, out, h1, h2, h3, h4, h5⟩ := clipPolys_area p7 hp7 ax hm p hp ps hg
      (fun q hq r hr => hfar r (List.mem_flatten.2 ⟨q, hq, hr⟩))
    obtain ⟨e1, e2, e3⟩ := polyResult_area out h5
    refine ⟨polyResult out, by simp [clip, h1, h2], e1, by rw [e2, h3]; rfl, ?_⟩
    rw [e3]
    intro r hr
    obtain ⟨q, hq, hr⟩ := List.mem_flatten.1 hr
    exact h4 q hq r hr
  · exact absurd hg not_false

theorem near_self {m : F} (hm : 0 ≤ m) (p : F × F) : Near m p p := by simp [Near, hm]

theorem covers_xy (g : Geom F) (hg : g.IsArea) {m : F} (hm : 0 ≤ m) (p : F × F) (hfar : FarFrom m g.rings p) :
    g.covers .x p = g.covers .y p := by
  unfold Geom.IsArea at hg
  split at hg
  · exact inside_xy p _ fun r hr h => hfar r hr p h (near_self hm p)
  · rename_i ps
    simp only [Geom.covers, insideAny]
    rw [Bool.eq_iff_iff, List.any_eq_true, List.any_eq_true]
    have : ∀ q ∈ ps, inside .x p q = inside .y p q := fun q hq => inside_xy p q fun r hr h =>
      hfar r (List.mem_flatten.2 ⟨q, hq, hr⟩) p h (near_self hm p)
    constructor
    · rintro ⟨q, hq, h⟩; exact ⟨q, hq, by rw [← this q hq]; exact h⟩
    · rintro ⟨q, hq, h⟩; exact ⟨q, hq, by rw [this q hq]; exact h⟩
  · exact absurd hg not_false

/-- Both axes. -/
theorem clip_clip_area (p7 : F) (hp7 : 0 ≤ p7) (b : Box F) {m : F} (hm : 0 ≤ m) (p : F × F) (hp : DeepInBox b (m + p7) p)
    (g : Geom F) (hg : g.IsArea) (hfar : FarFrom (m + 2 * p7) g.rings p) :
    ∃ g1 g2, clip p7 g b.W b.E .x = some g1 ∧ clip p7 g1 b.S b.N .y = some g2 ∧ g2.IsArea ∧ g2.covers .y p = g.covers .y p ∧
      FarFrom m g2.rings p := by
  obtain ⟨hx, hy⟩ := hp
  obtain ⟨g1, h1, h2, h3, h4⟩ := clip_area p7 hp7 .x (m := m + p7) (by linarith) p hx g hg (by
    rw [show m + p7 + p7 = m + 2 * p7 by ring]; exact hfar)
  obtain ⟨g2, i1, i2, i3, i4⟩ := clip_area p7 hp7 .y (k1 := b.S) (k2 := b.N) hm p ⟨by linarith [hy.1], by linarith [hy.2]⟩ g1 h2 h4
  refine ⟨g1, g2, h1, i1, i2, ?_, i4⟩
  rw [i3, ← covers_xy g1 h2 (by linarith) p h4, h3, covers_xy g hg (by linarith) p hfar]

theorem makefeature_area {g : Geom F} (hg : g.IsArea) (hne : g ≠ .polygon []) : makefeature g = some g := by
  unfold Geom.IsArea at hg
  split at hg
  · rename_i r
    cases r with
    | nil => exact absurd rfl hne
    | cons x r =>
      cases x with
      | nil => exact absurd rfl (hg [] (by simp))
      | cons => rfl
  · rfl
  · exact absurd hg not_false

/-- C68: `ClipTile` of a polygon or multi-polygon keeps the inside: for every point of the tile that is farther than twice Power7
from every edge of the polygon and than Power7 from the tile's border, the result covers the point exactly if the polygon does. -/
theorem C68_tile (p7 : F) (hp7 : 0 ≤ p7) (g : Geom F) (hg : g.IsArea) (b : Box F) (out : Geom F) (h : clipTile p7 g b = some out) (p : F × F)
    (hp : DeepInBox b p7 p) (hfar : FarFrom (2 * p7) g.rings p) : out.covers .y p = g.covers .y p := by
  obtain ⟨g1, g2, h1, h2, h3, h4, h5⟩ := clip_clip_area p7 hp7 b (m := 0) le_rfl p (by simpa using hp) g hg (by simpa using hfar)
  unfold clipTile at h
  simp only [h1, h2, Option.bind_eq_bind, Option.bind_some] at h
  by_cases hne : g2 = .polygon []
  · rw [hne] at h; simp [makefeature] at h
  · rw [makefeature_area h3 hne] at h
    obtain rfl : g2 = out := by simpa using h
    exact h4

/-- C68: if the polygon covers such a point of the tile, `ClipTile` does not panic and the result covers it. -/
theorem C68_tile_covered (p7 : F) (hp7 : 0 ≤ p7) (g : Geom F) (hg : g.IsArea) (b : Box F) (p : F × F)
    (hp : DeepInBox b p7 p) (hfar : FarFrom (2 * p7) g.rings p) (hc : g.covers .y p = true) :
    ∃ out, clipTile p7 g b = some out ∧ out.covers .y p = true := by
  obtain ⟨g1, g2, h1, h2, h3, h4, h5⟩ := clip_clip_area p7 hp7 b (m := 0) le_rfl p (by simpa using hp) g hg (by simpa using hfar)
  have hne : g2 ≠ .polygon [] := by
    rintro rfl
    rw [hc] at h4
    simp [Geom.covers, inside] at h4
  refine ⟨g2, ?_, by rw [h4, hc]⟩
  unfold clipTile
  simp only [h1, h2, Option.bind_eq_bind, Option.bind_some]
  exact makefeature_area h3 hne

/-- C68 (false part): when only one corner of a triangle is in the tile the result is a ring of three points that is not closed. -/
theorem C68_open_ring : clipTile (1 / 10 ^ 7) (.polygon [[((1 : ℚ), (0 : ℚ)), (3, 0), (2, 2), (1, 0)]]) ⟨0, 1, 4, 3⟩ =
    some (.polygon [[(5 / 2, 1), (2, 2), (3 / 2, 1)]]) := by decide +kernel

/-! ### one level of ClipFeature -/

theorem clipLine_total (g : List (F × F)) (hg : g ≠ []) (k1 k2 : F) (ax : Axis) (ring : Bool) :
    ∃ out, clipLine g k1 k2 ax ring = some out := by
  have : ∀ (g : List (F × F)) (a : F × F) (st : St F), ∃ out, clipLoop ring ax k1 k2 (a :: g) st = some out := by
    intro g
    induction g with
    | nil => intro a st; exact ⟨_, rfl⟩
    | cons b g ih => intro a st; exact ih b _
  cases g with
  | nil => exact absurd rfl hg
  | cons a g => exact this g a _

theorem lintRing_total (p7 : F) (r : List (F × F)) (h : r ≠ []) : ∃ s, lintRing p7 r = some s ∧ s ≠ [] := by
  cases r with
  | nil => exact absurd rfl h
  | cons f r =>
    obtain ⟨l, hl⟩ : ∃ l, (f :: r).getLast? = some l := ⟨_, List.getLast?_eq_some_getLast (by simp)⟩
    simp only [lintRing, List.head?_cons, hl]
    refine ⟨_, rfl, ?_⟩
    split <;> simp

theorem clipRings_total (p7 : F) (ax : Axis) (k1 k2 : F) (rings : List (List (F × F))) (hne : ∀ r ∈ rings, r ≠ []) :
    ∃ mid out, lintPolygon p7 rings = some mid ∧ clipLines mid k1 k2 ax true = some out ∧ ∀ r ∈ out, r ≠ [] := by
  induction rings with
  | nil => exact ⟨[], [], rfl, rfl, by simp⟩
  | cons r rings ih =>
    obtain ⟨s, h1, h2⟩ := lintRing_total p7 r (hne r (by simp))
    obtain ⟨o, g1⟩ := clipLine_total s h2 k1 k2 ax true
    obtain ⟨mid, out, i1, i2, i5⟩ := ih (fun r hr => hne r (by simp [hr]))
    refine ⟨s :: mid, o ++ out, ?_, ?_, ?_⟩
    · unfold lintPolygon at i1 ⊢
      simp [List.mapM_cons, h1, i1]
    · unfold clipLines at i2 ⊢
      rw [Option.map_eq_some_iff] at i2
      obtain ⟨os, j1, j2⟩ := i2
      simp [List.mapM_cons, g1, j1, j2]
    · intro r hr
      rcases List.mem_append.1 hr with hr | hr
      · rintro rfl
        exact ((C38_one_closed_ring s k1 k2 ax o g1).2 [] hr).1 rfl
      · exact i5 r hr

/-- `clip` never panics on polygons whose rings have vertices, and gives such polygons. -/
theorem clip_total (p7 : F) (ax : Axis) (k1 k2 : F) (g : Geom F) (hg : g.IsArea) :
    ∃ g', clip p7 g k1 k2 ax = some g' ∧ g'.IsArea := by
  unfold Geom.IsArea at hg
  split at hg
  · rename_i r
    obtain ⟨mid, out, h1, h2, h5⟩ := clipRings_total p7 ax k1 k2 r hg
    exact ⟨.polygon out, by simp [clip, h1, h2], h5⟩
  · rename_i ps
    have : ∃ mid out, ps.mapM (lintPolygon p7) = some mid ∧ clipMultiPolygon mid k1 k2 ax true = some out ∧ ∀ q ∈ out, ∀ r ∈ q, r ≠ [] := by
      induction ps with
      | nil => exact ⟨[], [], rfl, rfl, by simp⟩
      | cons r ps ih =>
        obtain ⟨s, o, h1, h2, h5⟩ := clipRings_total p7 ax k1 k2 r (hg r (by simp))
        obtain ⟨mid, out, i1, i2, i5⟩ := ih (fun r hr => hg r (by simp [hr]))
        refine ⟨s :: mid, if o.length > 0 then o :: out else out, ?_, ?_, ?_⟩
        · simp [List.mapM_cons, h1, i1]
        · unfold clipMultiPolygon at i2 ⊢
          rw [Option.map_eq_some_iff] at i2
          obtain ⟨os, j1, j2⟩ := i2
          simp [List.mapM_cons, h2, j1, ← j2, List.filter_cons]
        · intro q hq
          split at hq
          · rcases List.mem_cons.1 hq with rfl | hq
            · exact h5
            · exact i5 q hq
          · exact i5 q hq
    obtain ⟨mid, out, h1, h2, h5⟩ := this
    exact ⟨polyResult out, by simp [clip, h1, h2], (polyResult_area out h5).1⟩
  · exact absurd hg not_false

/-- Whether an entry of the map covers the point; a missing entry covers nothing. -/
def optCovers (p : F × F) : Option (Geom F) → Bool
  | some g => g.covers .y p
  | none => false

theorem isEmpty_area {g : Geom F} (hg : g.IsArea) (h : isEmpty g = true) (ax : Axis) (p : F × F) : g.covers ax p = false := by
  unfold Geom.IsArea at hg
  split at hg
  · rename_i r
    have : r = [] := by simpa [isEmpty] using h
    simp [this, Geom.covers, inside]
  · rename_i ps
    have : ps = [] := by simpa [isEmpty] using h
    simp [this, Geom.covers, insideAny]
  · exact absurd hg not_false

theorem bboxPts_bounding : ∀ {r : List (F × F)} {b : Box F}, bboxPts r = some b → IsBoundingBox r b := by
  have key : ∀ (q : List (F × F)) (r : List (F × F)) (b : Box F), IsBoundingBox r b →
      IsBoundingBox (r ++ q) (q.foldl (fun b q => ⟨min b.W q.1, min b.S q.2, max b.E q.1, max b.N q.2⟩) b) := by
    intro q
    induction q with
    | nil => intro r b h; simpa using h
    | cons c q ih =>
      intro r b h
      rw [show r ++ c :: q = (r ++ [c]) ++ q by simp, List.foldl_cons]
      apply ih
      obtain ⟨h0, h1, h2, h3, h4⟩ := h
      have pick : ∀ (f : F × F → F) (v : F), (∃ p ∈ r, f p = v) → ∀ w, w = v ∨ w = f c → ∃ p ∈ r ++ [c], f p = w := by
        rintro f v ⟨p, hp, hv⟩ w (rfl | rfl)
        · exact ⟨p, by simp [hp], hv⟩
        · exact ⟨c, by simp, rfl⟩
      refine ⟨?_, pick (fun p => p.1) _ h1 _ (min_choice _ _), pick (fun p => p.1) _ h2 _ (max_choice _ _),
        pick (fun p => p.2) _ h3 _ (min_choice _ _), pick (fun p => p.2) _ h4 _ (max_choice _ _)⟩
      intro p hp
      rcases List.mem_append.1 hp with hp | hp
      · obtain ⟨⟨a1, a2⟩, ⟨a3, a4⟩⟩ := h0 p hp
        exact ⟨⟨(min_le_left _ _).trans a1, a2.trans (le_max_left _ _)⟩, ⟨(min_le_left _ _).trans a3, a4.trans (le_max_left _ _)⟩⟩
      · simp only [List.mem_singleton] at hp; subst hp
        exact ⟨⟨min_le_right _ _, le_max_right _ _⟩, ⟨min_le_right _ _, le_max_right _ _⟩⟩
  intro r b h
  cases r with
  | nil => simp [bboxPts] at h
  | cons a r =>
    simp only [bboxPts, Option.some.injEq] at h
    subst h
    have := key r [a] ⟨a.1, a.2, a.1, a.2⟩ ⟨by simp [InBox], by simp, by simp, by simp, by simp⟩
    simpa using this

theorem bounding_unique {r : List (F × F)} {b c : Box F} (hb : IsBoundingBox r b) (hc : IsBoundingBox r c) : b = c := by
  obtain ⟨b0, ⟨p1, m1, e1⟩, ⟨p2, m2, e2⟩, ⟨p3, m3, e3⟩, ⟨p4, m4, e4⟩⟩ := hb
  obtain ⟨c0, ⟨q1, n1, f1⟩, ⟨q2, n2, f2⟩, ⟨q3, n3, f3⟩, ⟨q4, n4, f4⟩⟩ := hc
  have h1 : b.W = c.W := le_antisymm (f1 ▸ (b0 q1 n1).1.1) (e1 ▸ (c0 p1 m1).1.1)
  have h2 : b.E = c.E := le_antisymm (e2 ▸ (c0 p2 m2).1.2) (f2 ▸ (b0 q2 n2).1.2)
  have h3 : b.S = c.S := le_antisymm (f3 ▸ (b0 q3 n3).2.1) (e3 ▸ (c0 p3 m3).2.1)
  have h4 : b.N = c.N := le_antisymm (e4 ▸ (c0 p4 m4).2.2) (f4 ▸ (b0 q4 n4).2.2)
  cases b; cases c; simp_all

theorem isTileSquare_iff (p7 : F) (g : Geom F) (b : Box F) : isTileSquare p7 g b = true ↔ LooksLikeTile p7 b g := by
  have poly : ∀ r : List (F × F), isTileSquare p7 (.polygon [r]) b = true ↔ LooksLikeTile p7 b (.polygon [r]) := by
    intro r
    simp only [isTileSquare, LooksLikeTile, Bool.and_eq_true, Bool.or_eq_true, beq_iff_eq]
    constructor
    · rintro ⟨h1, h2⟩
      cases hb : bboxPts r with
      | none => rw [hb] at h2; simp at h2
      | some bb =>
        rw [hb] at h2
        simp only [deltaBounds, goAbs_eq, Bool.and_eq_true, decide_eq_true_eq] at h2
        exact .inr ⟨r, bb, rfl, h1, bboxPts_bounding hb, h2.1.1.1, h2.1.1.2, h2.1.2, h2.2⟩
    · rintro (⟨w, s, e, n, h⟩ | ⟨r', bb, h, h1, h2, d1, d2, d3, d4⟩)
      · simp at h
      · simp only [Geom.polygon.injEq, List.cons.injEq, and_true] at h
        subst h
        refine ⟨h1, ?_⟩
        cases hb : bboxPts r with
        | none =>
          cases r with
          | nil => simp at h1
          | cons a r => simp [bboxPts] at hb
        | some bb' =>
          obtain rfl := bounding_unique h2 (bboxPts_bounding hb)
          simp only [deltaBounds, goAbs_eq, Bool.and_eq_true, decide_eq_true_eq]
          exact ⟨⟨⟨d1, d2⟩, d3⟩, d4⟩
  match g with
  | .square w s e n => simp [isTileSquare, LooksLikeTile]
  | .polygon [r] => exact poly r
  | .polygon [] => simp [isTileSquare, LooksLikeTile]
  | .polygon (_ :: _ :: _) => simp [isTileSquare, LooksLikeTile]
  | .empty => simp [isTileSquare, LooksLikeTile]
  | .point _ => simp [isTileSquare, LooksLikeTile]
  | .multiPoint _ => simp [isTileSquare, LooksLikeTile]
  | .lineString _ => simp [isTileSquare, LooksLikeTile]
  | .multiLine _ => simp [isTileSquare, LooksLikeTile]
  | .multiLineString _ => simp [isTileSquare, LooksLikeTile]
  | .multiPolygon _ => simp [isTileSquare, LooksLikeTile]

theorem children_area (p7 : F) (hp7 : 0 ≤ p7) (g : Geom F) (hg : g.IsArea) (hne : g ≠ .polygon []) (w mx e s my n : F)
    (hsq : isTileSquare p7 g ⟨w, s, e, n⟩ = false) :
    ∃ r0 r1 r2 r3, clipDownTile p7 g ⟨w, s, e, n⟩ ⟨w, my, mx, n⟩ ⟨mx, my, e, n⟩ ⟨mx, s, e, my⟩ ⟨w, s, mx, my⟩ = some [r0, r1, r2, r3] ∧
      ∀ m, 0 ≤ m → ∀ p, FarFrom (m + 2 * p7) g.rings p →
        ∀ x ∈ [((⟨w, my, mx, n⟩ : Box F), r0), (⟨mx, my, e, n⟩, r1), (⟨mx, s, e, my⟩, r2), (⟨w, s, mx, my⟩, r3)],
          DeepInBox x.1 (m + p7) p → optCovers p x.2 = g.covers .y p ∧ ∀ g' ∈ x.2, FarFrom m g'.rings p := by
  obtain ⟨l, hl, al⟩ := clip_total p7 .x w mx g hg
  obtain ⟨r, hr, ar⟩ := clip_total p7 .x mx e g hg
  obtain ⟨ld, hld, ald⟩ := clip_total p7 .y s my l al
  obtain ⟨lu, hlu, alu⟩ := clip_total p7 .y my n l al
  obtain ⟨rd, hrd, ard⟩ := clip_total p7 .y s my r ar
  obtain ⟨ru, hru, aru⟩ := clip_total p7 .y my n r ar
  have key : ∀ (b : Box F) (g1 g2 : Geom F), clip p7 g b.W b.E .x = some g1 → clip p7 g1 b.S b.N .y = some g2 → g2.IsArea →
      ∀ m, 0 ≤ m → ∀ p, FarFrom (m + 2 * p7) g.rings p → DeepInBox b (m + p7) p →
        optCovers p (if isEmpty g2 then none else some g2) = g.covers .y p ∧
          ∀ g' ∈ (if isEmpty g2 then none else some g2 : Option (Geom F)), FarFrom m g'.rings p := by
    intro b g1 g2 h1 h2 h3 m hm p hfar hd
    obtain ⟨g1', g2', i1, i2, _, i4, i5⟩ := clip_clip_area p7 hp7 b hm p hd g hg hfar
    rw [h1] at i1
    obtain rfl : g1 = g1' := by simpa using i1
    rw [h2] at i2
    obtain rfl : g2 = g2' := by simpa using i2
    split
    · rename_i he
      rw [← i4, isEmpty_area h3 he]; exact ⟨rfl, by simp⟩
    · exact ⟨i4, by intro g' h; simp at h; subst h; exact i5⟩
  refine ⟨if isEmpty lu then none else some lu, if isEmpty ru then none else some ru, if isEmpty rd then none else some rd,
    if isEmpty ld then none else some ld, ?_, ?_⟩
  · have : ∀ g : Geom F, g.IsArea → g ≠ .polygon [] → isTileSquare p7 g ⟨w, s, e, n⟩ = false → (clip p7 g w mx .x = some l) → clip p7 g mx e .x = some r →
        clipDownTile p7 g ⟨w, s, e, n⟩ ⟨w, my, mx, n⟩ ⟨mx, my, e, n⟩ ⟨mx, s, e, my⟩ ⟨w, s, mx, my⟩ =
          some [if isEmpty lu then none else some lu, if isEmpty ru then none else some ru, if isEmpty rd then none else some rd,
            if isEmpty ld then none else some ld] := by
      intro g hg hne hsq hl hr
      unfold clipDownTile
      split
      · exact absurd rfl hne
      · exact absurd rfl (hg [] (by simp))
      · simp [hsq, hl, hr, hld, hlu, hrd, hru]
    exact this g hg hne hsq hl hr
  · intro m hm p hfar x hx hd
    simp only [List.mem_cons, List.not_mem_nil, or_false] at hx
    rcases hx with rfl | rfl | rfl | rfl
    · exact key ⟨w, my, mx, n⟩ l lu hl hlu alu m hm p hfar hd
    · exact key ⟨mx, my, e, n⟩ r ru hr hru aru m hm p hfar hd
    · exact key ⟨mx, s, e, my⟩ r rd hr hrd ard m hm p hfar hd
    · exact key ⟨w, s, mx, my⟩ l ld hl hld ald m hm p hfar hd

/-- C68: one level of `ClipFeature`. A polygon that is not taken for the whole tile is cut into four so that each child's entry covers
exactly the points of the child that the polygon covers (away from the edges and borders as in `C68_tile`); a missing entry covers
nothing. It never panics. -/
theorem C68_children (p7 : F) (hp7 : 0 ≤ p7) (g : Geom F) (hg : g.IsArea) (hne : g ≠ .polygon []) (w mx e s my n : F)
    (hsq : ¬ LooksLikeTile p7 ⟨w, s, e, n⟩ g) :
    ∃ r0 r1 r2 r3, clipDownTile p7 g ⟨w, s, e, n⟩ ⟨w, my, mx, n⟩ ⟨mx, my, e, n⟩ ⟨mx, s, e, my⟩ ⟨w, s, mx, my⟩ = some [r0, r1, r2, r3] ∧
      ∀ m, 0 ≤ m → ∀ p, FarFrom (m + 2 * p7) g.rings p →
        ∀ x ∈ [((⟨w, my, mx, n⟩ : Box F), r0), (⟨mx, my, e, n⟩, r1), (⟨mx, s, e, my⟩, r2), (⟨w, s, mx, my⟩, r3)],
          DeepInBox x.1 (m + p7) p → optCovers p x.2 = g.covers .y p ∧ ∀ g' ∈ x.2, FarFrom m g'.rings p :=
  children_area p7 hp7 g hg hne w mx e s my n (by
    rw [← isTileSquare_iff] at hsq; simpa using hsq)

/-- C68: a polygon taken for the whole tile gives each of the four children its whole square, whatever the shape of the polygon. -/
theorem C68_children_tile (p7 : F) (g : Geom F) (b c0 c1 c2 c3 : Box F) (hsq : LooksLikeTile p7 b g) :
    clipDownTile p7 g b c0 c1 c2 c3 = some ([c0, c1, c2, c3].map fun c => some (.square c.W c.S c.E c.N)) := by
  have h := (isTileSquare_iff p7 g b).2 hsq
  unfold clipDownTile
  split
  · simp [isTileSquare] at h
  · rcases hsq with ⟨w, s, e, n, h'⟩ | ⟨r, bb, h', h1, _⟩
    · simp at h'
    · simp only [Geom.polygon.injEq, List.cons.injEq] at h'
      obtain ⟨rfl, _⟩ := h'
      simp at h1
  · simp [h]

/-- A tilted rectangle inside the unit square touching all its sides looks like the tile. -/
example : LooksLikeTile (1 / 10 ^ 7 : ℚ) ⟨0, 0, 1, 1⟩ (.polygon [[(0, 1 / 2), (1 / 2, 0), (1, 1 / 2), (1 / 2, 1), (0, 1 / 2)]]) :=
  (isTileSquare_iff _ _ _).1 (by decide +kernel)

/-- A smaller square does not. -/
example : ¬ LooksLikeTile (1 / 10 ^ 7 : ℚ) ⟨0, 0, 1, 1⟩ (.polygon [[(0, 0), (1 / 2, 0), (1 / 2, 1 / 2), (0, 1 / 2), (0, 0)]]) := by
  rw [← isTileSquare_iff]; decide +kernel

theorem clipDownTile_sane (p7 : F) (g : Geom F) (hg : g.IsArea) (hne : g ≠ .polygon []) (w mx e s my n : F)
    (hsq : isTileSquare p7 g ⟨w, s, e, n⟩ = false) (rs : List (Option (Geom F)))
    (h : clipDownTile p7 g ⟨w, s, e, n⟩ ⟨w, my, mx, n⟩ ⟨mx, my, e, n⟩ ⟨mx, s, e, my⟩ ⟨w, s, mx, my⟩ = some rs) :
    ∀ r ∈ rs, ∀ g' ∈ r, g'.IsArea ∧ g' ≠ .polygon [] := by
  obtain ⟨l, hl, al⟩ := clip_total p7 .x w mx g hg
  obtain ⟨r, hr, ar⟩ := clip_total p7 .x mx e g hg
  obtain ⟨ld, hld, ald⟩ := clip_total p7 .y s my l al
  obtain ⟨lu, hlu, alu⟩ := clip_total p7 .y my n l al
  obtain ⟨rd, hrd, ard⟩ := clip_total p7 .y s my r ar
  obtain ⟨ru, hru, aru⟩ := clip_total p7 .y my n r ar
  have kp : ∀ (v g' : Geom F), v.IsArea → g' ∈ (if isEmpty v then none else some v : Option (Geom F)) → g'.IsArea ∧ g' ≠ .polygon [] := by
    intro v g' hv h
    split at h
    · simp at h
    · rename_i he
      simp at h; subst h
      refine ⟨hv, ?_⟩
      rintro rfl; simp [isEmpty] at he
  unfold clipDownTile at h
  split at h
  · simp at h
  · simp at h
  · simp only [hsq, Bool.false_eq_true, if_false, hl, hr, hld, hlu, hrd, hru, Option.bind_eq_bind, Option.bind_some, Option.pure_def,
      Option.some.injEq] at h
    subst h
    intro x hx g' hg'
    simp only [List.mem_cons, List.not_mem_nil, or_false] at hx
    rcases hx with rfl | rfl | rfl | rfl
    · exact kp _ _ alu hg'
    · exact kp _ _ aru hg'
    · exact kp _ _ ard hg'
    · exact kp _ _ ald hg'

/-- C68 (false part): a triangle with a right angle at a corner of the tile and the two others at the neighbouring corners (what
clipping along the tile's diagonal leaves) is taken for the whole tile: the child on the far side of the diagonal gets a full square
although the triangle does not cover it. -/
theorem C68_triangle_becomes_square :
    (Geom.polygon [[((0 : ℚ), (0 : ℚ)), (1, 0), (0, 1), (0, 0)]]).covers .y (9 / 10, 9 / 10) = false ∧
    (clipDownTile (1 / 10 ^ 7) (Geom.polygon [[((0 : ℚ), (0 : ℚ)), (1, 0), (0, 1), (0, 0)]]) ⟨0, 0, 1, 1⟩
      ⟨0, 1 / 2, 1 / 2, 1⟩ ⟨1 / 2, 1 / 2, 1, 1⟩ ⟨1 / 2, 0, 1, 1 / 2⟩ ⟨0, 0, 1 / 2, 1 / 2⟩).map (fun r => r.map (optCovers (9 / 10, 9 / 10))) =
      some [false, true, false, false] := by
  decide +kernel

end Verif.Clip
