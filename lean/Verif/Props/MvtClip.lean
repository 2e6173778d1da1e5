import Verif.Proof.MvtClip
import Verif.Proof.ListAux
import Verif.Props.TileGeo
import Verif.Props.TileID

/-!
# C36-C40: clipping
-/
namespace Verif.Clip
open Verif.Tid Verif.Go

section anyArith
variable {F : Type} [Zero F] [Add F] [Sub F] [Mul F] [Div F] [LinearOrder F]

theorem entering_slab {ax : Axis} {k1 k2 : F} (hk : k1 ≤ k2) {a b q : F × F} (h : q ∈ entering ax k1 k2 a b) :
    InSlab ax k1 k2 q := by
  unfold entering at h
  unfold InSlab
  split at h
  · split at h
    · simp at h; subst h; rw [coord_intersect]; exact ⟨le_rfl, hk⟩
    · simp at h
  · split at h
    · split at h
      · simp at h; subst h; rw [coord_intersect]; exact ⟨hk, le_rfl⟩
      · simp at h
    · simp at h; subst h
      rename_i h1 h2
      exact ⟨(not_le.1 h1).le, (not_le.1 h2).le⟩

theorem leaving_slab {ax : Axis} {k1 k2 : F} (hk : k1 ≤ k2) {a b q : F × F} (h : q ∈ leaving ax k1 k2 a b) :
    InSlab ax k1 k2 q := by
  unfold leaving at h
  unfold InSlab
  rcases List.mem_append.1 h with h | h
  · split at h
    · simp at h; subst h; rw [coord_intersect]; exact ⟨le_rfl, hk⟩
    · simp at h
  · split at h
    · simp at h; subst h; rw [coord_intersect]; exact ⟨hk, le_rfl⟩
    · simp at h

theorem clipLoop_slab (ring : Bool) (ax : Axis) {k1 k2 : F} (hk : k1 ≤ k2) : ∀ (g : List (F × F)) (st : St F)
    (out : List (List (F × F))), (∀ q ∈ st.slice, InSlab ax k1 k2 q) → (∀ l ∈ st.out, ∀ q ∈ l, InSlab ax k1 k2 q) →
    clipLoop ring ax k1 k2 g st = some out → ∀ l ∈ out, ∀ q ∈ l, InSlab ax k1 k2 q := by
  intro g
  induction g with
  | nil => intro st out _ _ h; simp [clipLoop] at h
  | cons a g ih =>
    intro st out hs ho h
    cases g with
    | nil =>
      simp only [clipLoop, Option.some.injEq] at h
      subst h
      unfold finish
      have h1 : ∀ q ∈ (if coord ax a ≥ k1 ∧ coord ax a ≤ k2 then st.slice ++ [a] else st.slice), InSlab ax k1 k2 q := by
        split
        · rename_i h; intro q hq
          rcases List.mem_append.1 hq with hq | hq
          · exact hs q hq
          · simp at hq; subst hq; exact h
        · exact hs
      generalize (if coord ax a ≥ k1 ∧ coord ax a ≤ k2 then st.slice ++ [a] else st.slice) = s at h1 ⊢
      have h2 : ∀ q ∈ closeRing ring s, InSlab ax k1 k2 q := by
        unfold closeRing
        split
        · rename_i f l hf hl
          split
          · intro q hq
            rcases List.mem_append.1 hq with hq | hq
            · exact h1 q hq
            · simp at hq; subst hq; exact h1 _ (List.mem_of_mem_head? hf)
          · exact h1
        · exact h1
      dsimp only
      generalize closeRing ring s = s' at h2 ⊢
      by_cases hlen : s'.length > 0
      · rw [if_pos hlen]; intro l hl
        rcases List.mem_append.1 hl with hl | hl
        · exact ho l hl
        · simp only [List.mem_singleton] at hl; subst hl; exact h2
      · rw [if_neg hlen]; exact ho
    | cons b g =>
      rw [clipLoop] at h
      refine ih _ out ?_ ?_ h
      all_goals
        unfold segStep
        dsimp only
        have hall : ∀ q ∈ st.slice ++ entering ax k1 k2 a b ++ leaving ax k1 k2 a b, InSlab ax k1 k2 q := by
          intro q hq
          rcases List.mem_append.1 hq with hq | hq
          · rcases List.mem_append.1 hq with hq | hq
            · exact hs q hq
            · exact entering_slab hk hq
          · exact leaving_slab hk hq
        split
      · simp
      · exact hall
      · intro l hl
        rcases List.mem_append.1 hl with hl | hl
        · exact ho l hl
        · simp only [List.mem_singleton] at hl; subst hl; exact hall
      · exact ho

/-- **C36.** Whatever the arithmetic (`+ - * /` may round in any way), clipping a line or ring against the slab `[k1, k2]`
returns only points of the slab. -/
theorem C36_in_slab (g : List (F × F)) (k1 k2 : F) (ax : Axis) (ring : Bool) (hk : k1 ≤ k2) (out : List (List (F × F)))
    (h : clipLine g k1 k2 ax ring = some out) : ∀ l ∈ out, ∀ q ∈ l, InSlab ax k1 k2 q :=
  clipLoop_slab ring ax hk g ⟨[], []⟩ out (by simp) (by simp) h

theorem clipLines_mem {g : List (List (F × F))} {k1 k2 : F} {ax : Axis} {ring : Bool} {out : List (List (F × F))}
    (h : clipLines g k1 k2 ax ring = some out) {l : List (F × F)} (hl : l ∈ out) :
    ∃ m ∈ g, ∃ o, clipLine m k1 k2 ax ring = some o ∧ l ∈ o := by
  unfold clipLines at h
  rw [Option.map_eq_some_iff] at h
  obtain ⟨os, h1, rfl⟩ := h
  obtain ⟨o, ho, hlo⟩ := List.mem_flatten.1 hl
  obtain ⟨m, hm, h2⟩ := ListAux.mapM_mem h1 ho
  exact ⟨m, hm, o, h2, hlo⟩

/-- **C36.** The same for any geometry: all vertices of `clip(g, k1, k2, axis)` are in the slab. -/
theorem C36_clip_in_slab (p7 : F) (g : Geom F) (k1 k2 : F) (ax : Axis) (hk : k1 ≤ k2) (out : Geom F)
    (h : clip p7 g k1 k2 ax = some out) : ∀ q ∈ out.pts, InSlab ax k1 k2 q := by
  have hlines : ∀ (ls : List (List (F × F))) (ring : Bool) (o : List (List (F × F))),
      clipLines ls k1 k2 ax ring = some o → ∀ l ∈ o, ∀ q ∈ l, InSlab ax k1 k2 q := by
    intro ls ring o ho l hl q hq
    obtain ⟨m, _, o', ho', hl'⟩ := clipLines_mem ho hl
    exact C36_in_slab m k1 k2 ax ring hk o' ho' l hl' q hq
  have hcase : ∀ ls : List (List (F × F)), (∀ l ∈ ls, ∀ q ∈ l, InSlab ax k1 k2 q) →
      ∀ q ∈ (lineResult ls).pts, InSlab ax k1 k2 q := by
    intro ls h q hq
    unfold lineResult at hq
    split at hq
    · rename_i one
      exact h one (List.mem_singleton.2 rfl) q hq
    · simp only [Geom.pts] at hq
      obtain ⟨l, hl, hql⟩ := List.mem_flatten.1 hq
      exact h l hl q hql
  cases g with
  | lineString l =>
    simp only [clip, Option.map_eq_some_iff] at h
    obtain ⟨ls, h1, rfl⟩ := h
    exact hcase ls (C36_in_slab l k1 k2 ax false hk ls h1)
  | multiLine l =>
    simp only [clip, Option.map_eq_some_iff] at h
    obtain ⟨ls, h1, rfl⟩ := h
    exact hcase ls (hlines l false ls h1)
  | polygon p =>
    simp only [clip, Option.bind_eq_bind, Option.bind_eq_some_iff, Option.pure_def, Option.some.injEq] at h
    obtain ⟨p', _, ls, h2, rfl⟩ := h
    intro q hq
    obtain ⟨l, hl, hql⟩ := List.mem_flatten.1 hq
    exact hlines p' true ls h2 l hl q hql
  | multiPolygon ps =>
    simp only [clip, Option.bind_eq_bind, Option.bind_eq_some_iff, Option.pure_def, Option.some.injEq] at h
    obtain ⟨ps', _, r, h2, h3⟩ := h
    have hr : ∀ p ∈ r, ∀ l ∈ p, ∀ q ∈ l, InSlab ax k1 k2 q := by
      unfold clipMultiPolygon at h2
      rw [Option.map_eq_some_iff] at h2
      obtain ⟨r0, h4, rfl⟩ := h2
      intro p hp
      obtain ⟨m, _, h5⟩ := ListAux.mapM_mem h4 (List.mem_of_mem_filter hp)
      exact hlines _ true _ h5
    subst h3
    unfold polyResult
    split
    · intro q hq
      obtain ⟨l, hl, hql⟩ := List.mem_flatten.1 hq
      exact hr _ (by simp) l hl q hql
    · intro q hq
      obtain ⟨l, hl, hql⟩ := List.mem_flatten.1 hq
      obtain ⟨p, hp, hlp⟩ := List.mem_flatten.1 hl
      exact hr p hp l hlp q hql
  | empty => simp [clip] at h; subst h; simp [Geom.pts]
  | point => simp [clip] at h; subst h; simp [Geom.pts]
  | multiPoint => simp [clip] at h; subst h; simp [Geom.pts]
  | multiLineString => simp [clip] at h; subst h; simp [Geom.pts]
  | square => simp [clip] at h; subst h; simp [Geom.pts]

/-! ### C38: rings, any arithmetic -/

theorem closeRing_closed (s : List (F × F)) (h : 4 ≤ (closeRing true s).length) :
    (closeRing true s).head? = (closeRing true s).getLast? := by
  unfold closeRing at h ⊢
  cases s with
  | nil => simp
  | cons f s =>
    obtain ⟨l, hl⟩ : ∃ l, (f :: s).getLast? = some l := ⟨_, List.getLast?_eq_some_getLast (by simp)⟩
    simp only [List.head?_cons, hl] at h ⊢
    split
    · rw [List.getLast?_append]; simp
    · rename_i hc
      rw [if_neg hc] at h
      simp only [List.head?_cons, hl, Option.some.injEq]
      by_contra hne
      apply hc
      simp only [Bool.true_and, Bool.and_eq_true, Bool.or_eq_true, bne_iff_ne, ne_eq, decide_eq_true_eq]
      refine ⟨h, ?_⟩
      by_contra h2
      rw [not_or, not_not, not_not] at h2
      exact hne (Prod.ext h2.1.symm h2.2.symm)

theorem clipLoop_ring_out (ax : Axis) (k1 k2 : F) : ∀ (g : List (F × F)) (st : St F) (out : List (List (F × F))),
    st.out = [] → clipLoop true ax k1 k2 g st = some out → out = [] ∨ ∃ s, out = [closeRing true s] ∧ s ≠ [] := by
  intro g
  induction g with
  | nil => intro st out _ h; simp [clipLoop] at h
  | cons a g ih =>
    intro st out ho h
    cases g with
    | nil =>
      simp only [clipLoop, Option.some.injEq] at h
      subst h
      unfold finish
      simp only [ho, List.nil_append]
      generalize (if coord ax a ≥ k1 ∧ coord ax a ≤ k2 then st.slice ++ [a] else st.slice) = s
      split
      · right
        refine ⟨s, rfl, ?_⟩
        rintro rfl
        simp [closeRing] at *
      · exact .inl rfl
    | cons b g =>
      rw [clipLoop] at h
      exact ih _ _ (by simp [segStep, ho]) h

/-- **C38.** Clipping a ring gives at most one ring, whatever the arithmetic; a resulting ring of four points or more is
closed. -/
theorem C38_one_closed_ring (g : List (F × F)) (k1 k2 : F) (ax : Axis) (out : List (List (F × F)))
    (h : clipLine g k1 k2 ax true = some out) :
    out.length ≤ 1 ∧ ∀ r ∈ out, r ≠ [] ∧ (4 ≤ r.length → r.head? = r.getLast?) := by
  rcases clipLoop_ring_out ax k1 k2 g ⟨[], []⟩ out rfl h with rfl | ⟨s, rfl, hs⟩
  · simp
  · refine ⟨by simp, ?_⟩
    intro r hr
    simp only [List.mem_singleton] at hr
    subst hr
    refine ⟨?_, closeRing_closed s⟩
    intro hnil
    unfold closeRing at hnil
    split at hnil
    · split at hnil
      · simp at hnil
      · exact hs hnil
    · exact hs hnil

theorem clipLoop_out (ring : Bool) (ax : Axis) {k1 k2 : F} (hk : k1 ≤ k2) : ∀ (g : List (F × F)), g ≠ [] →
    ((∀ q ∈ g, coord ax q < k1) ∨ (∀ q ∈ g, k2 < coord ax q)) → clipLoop ring ax k1 k2 g ⟨[], []⟩ = some [] := by
  intro g
  induction g with
  | nil => intro h; exact absurd rfl h
  | cons a g ih =>
    intro _ hs
    cases g with
    | nil =>
      have : ¬ (coord ax a ≥ k1 ∧ coord ax a ≤ k2) := by
        rcases hs with h | h
        · exact fun h' => absurd h'.1 (not_le.2 (h a (by simp)))
        · exact fun h' => absurd h'.2 (not_le.2 (h a (by simp)))
      simp [clipLoop, finish, this, closeRing]
    | cons b g =>
      have hE : entering ax k1 k2 a b = [] ∧ leaving ax k1 k2 a b = [] ∧ exited ax k1 k2 a b = false := by
        rcases hs with h | h
        · have h1 := h a (by simp)
          have h2 := h b (by simp)
          have h3 : ¬ (k2 < coord ax b) := not_lt.2 (h2.le.trans hk)
          simp [entering, leaving, exited, h1.le, not_le.2 h1, not_le.2 h2, h3]
        · have h1 := h a (by simp)
          have h2 := h b (by simp)
          have h3 : ¬ (coord ax b < k1) := not_lt.2 (hk.trans h2.le)
          have h4 : ¬ (coord ax a ≤ k1) := not_le.2 (lt_of_le_of_lt hk h1)
          simp [entering, leaving, exited, h1.le, not_le.2 h1, not_le.2 h2, h3, h4]
      have hst : segStep ring ax k1 k2 ⟨[], []⟩ a b = ⟨[], []⟩ := by simp [segStep, hE]
      rw [clipLoop, hst]
      refine ih (by simp) ?_
      rcases hs with h | h
      · exact .inl fun q hq => h q (by simp [hq])
      · exact .inr fun q hq => h q (by simp [hq])

/-- **C38.** A line or ring entirely on one side of the slab disappears. -/
theorem C38_outside_disappears (g : List (F × F)) (k1 k2 : F) (ax : Axis) (ring : Bool) (hk : k1 ≤ k2) (hg : g ≠ [])
    (h : (∀ q ∈ g, coord ax q < k1) ∨ (∀ q ∈ g, k2 < coord ax q)) : clipLine g k1 k2 ax ring = some [] :=
  clipLoop_out ring ax hk g hg h

/-- **C39 (false part).** A MultiLineString is dropped by `ClipTile`, wherever it lies: the result has no geometry type. -/
theorem C39_multiline_dropped (p7 : F) (ls : List (List (F × F))) (b : Box F) :
    clipTile p7 (.multiLineString ls) b = some .empty := rfl

/-- **C39 (false part).** A polygon on one side of the tile makes `ClipTile` panic. -/
theorem C39_polygon_outside_panics (p7 : F) (rings : List (List (F × F))) (b : Box F) (hb : b.W ≤ b.E)
    (h : (∀ r ∈ rings, r ≠ [] ∧ ∀ q ∈ r, q.1 < b.W) ∨ (∀ r ∈ rings, r ≠ [] ∧ ∀ q ∈ r, b.E < q.1)) :
    clipTile p7 (.polygon rings) b = none := by
  have hl : ∀ l, lintPolygon p7 rings = some l →
      ((∀ r ∈ l, r ≠ [] ∧ ∀ q ∈ r, q.1 < b.W) ∨ (∀ r ∈ l, r ≠ [] ∧ ∀ q ∈ r, b.E < q.1)) := by
    intro l hl
    have key : ∀ (P : F × F → Prop), (∀ r ∈ rings, r ≠ [] ∧ ∀ q ∈ r, P q) → ∀ r ∈ l, r ≠ [] ∧ ∀ q ∈ r, P q := by
      intro P hP r hr
      obtain ⟨m, hm, h1⟩ := ListAux.mapM_mem hl hr
      unfold lintRing at h1
      split at h1
      · rename_i f l' hf hl'
        simp only [Option.some.injEq] at h1
        have hfP := (hP m hm).2 f (List.mem_of_mem_head? hf)
        subst h1
        split
        · refine ⟨by simp, ?_⟩
          intro q hq
          rcases List.mem_append.1 hq with hq | hq
          · exact (hP m hm).2 q hq
          · simp at hq; subst hq; exact hfP
        · refine ⟨by simp, ?_⟩
          intro q hq
          rcases List.mem_append.1 hq with hq | hq
          · exact (hP m hm).2 q (List.dropLast_subset _ hq)
          · simp at hq; subst hq; exact hfP
      · simp at h1
    rcases h with h | h
    · exact .inl (key _ h)
    · exact .inr (key _ h)
  have hx : ∀ l, lintPolygon p7 rings = some l → clipLines l b.W b.E .x true = some [] := by
    intro l hll
    unfold clipLines
    have : l.mapM (fun r => clipLine r b.W b.E .x true) = some (l.map fun _ => []) := by
      rw [ListAux.mapM_some, List.forall₂_map_right_iff, List.forall₂_same]
      intro r hr
      rcases hl l hll with h | h
      · exact C38_outside_disappears r b.W b.E .x true hb (h r hr).1 (.inl (h r hr).2)
      · exact C38_outside_disappears r b.W b.E .x true hb (h r hr).1 (.inr (h r hr).2)
    rw [this]; simp
  unfold clipTile
  cases hlp : lintPolygon p7 rings with
  | none => simp [clip, hlp]
  | some l =>
    have e1 : clip p7 (.polygon rings) b.W b.E .x = some (.polygon []) := by simp [clip, hlp, hx l hlp]
    have e2 : clip p7 (.polygon []) b.S b.N .y = some (.polygon []) := rfl
    rw [e1]
    simp only [Option.bind_eq_bind, Option.bind_some, e2]
    rfl

/-! ### C40: points -/

theorem mapAppend_spec (m : List (TileID × List (F × F))) (k : TileID) (p : F × F) (hn : (m.map (·.1)).Nodup) :
    ((mapAppend m k p).map (·.1)).Nodup ∧ (∀ k', k' ∈ (mapAppend m k p).map (·.1) ↔ k' ∈ m.map (·.1) ∨ k' = k) ∧
      ∀ k' l, (k', l) ∈ mapAppend m k p ↔
        (k' ≠ k ∧ (k', l) ∈ m) ∨ (k' = k ∧ ((∃ l', (k, l') ∈ m ∧ l = l' ++ [p]) ∨ (k ∉ m.map (·.1) ∧ l = [p]))) := by
  induction m with
  | nil =>
    refine ⟨by simp [mapAppend], by simp [mapAppend], ?_⟩
    intro k' l; simp [mapAppend]
  | cons e m ih =>
    simp only [List.map_cons, List.nodup_cons] at hn
    obtain ⟨i1, i2, i3⟩ := ih hn.2
    obtain ⟨ek, el⟩ := e
    by_cases he : ek = k
    · subst he
      simp only [mapAppend, if_true]
      refine ⟨by simpa using hn, by intro k'; simp; tauto, ?_⟩
      intro k' l
      simp only [List.mem_cons, Prod.mk.injEq, List.map_cons]
      constructor
      · rintro (⟨rfl, rfl⟩ | h)
        · exact .inr ⟨rfl, .inl ⟨el, .inl (by simp), rfl⟩⟩
        · have : k' ≠ ek := by
            rintro rfl; exact hn.1 (List.mem_map.2 ⟨_, h, rfl⟩)
          exact .inl ⟨this, .inr h⟩
      · rintro (⟨h1, h2⟩ | ⟨rfl, h2⟩)
        · rcases h2 with ⟨rfl, rfl⟩ | h2
          · exact absurd rfl h1
          · exact .inr h2
        · rcases h2 with ⟨l', h3, rfl⟩ | ⟨h3, _⟩
          · rcases h3 with ⟨_, rfl⟩ | h3
            · exact .inl ⟨rfl, rfl⟩
            · exact absurd (List.mem_map.2 ⟨_, h3, rfl⟩) hn.1
          · exact absurd (.inl trivial) h3
    · simp only [mapAppend, he, if_false]
      refine ⟨?_, ?_, ?_⟩
      · simp only [List.map_cons, List.nodup_cons]
        refine ⟨?_, i1⟩
        rw [i2]; rintro (h | h)
        · exact hn.1 h
        · exact he h
      · intro k'; simp only [List.map_cons, List.mem_cons, i2]; tauto
      · intro k' l
        simp only [List.mem_cons, Prod.mk.injEq, List.map_cons, i3]
        constructor
        · rintro (⟨rfl, rfl⟩ | h | ⟨rfl, ⟨l', h, rfl⟩ | ⟨h, rfl⟩⟩)
          · exact .inl ⟨he, .inl ⟨rfl, rfl⟩⟩
          · exact .inl ⟨h.1, .inr h.2⟩
          · exact .inr ⟨rfl, .inl ⟨l', .inr h, rfl⟩⟩
          · refine .inr ⟨rfl, .inr ⟨?_, rfl⟩⟩
            rintro (h' | h')
            · exact he h'.symm
            · exact h h'
        · rintro (⟨h1, ⟨rfl, rfl⟩ | h2⟩ | ⟨rfl, ⟨l', ⟨h, _⟩ | h, rfl⟩ | ⟨h, rfl⟩⟩)
          · exact .inl ⟨rfl, rfl⟩
          · exact .inr (.inl ⟨h1, h2⟩)
          · exact absurd h.symm he
          · exact .inr (.inr ⟨rfl, .inl ⟨l', h, rfl⟩⟩)
          · exact .inr (.inr ⟨rfl, .inr ⟨fun h' => h (.inr h'), rfl⟩⟩)

theorem groupPoints_spec (tl : F × F → TileID) (ps : List (F × F)) :
    ((groupPoints tl ps).map (·.1)).Nodup ∧ ∀ k l, (k, l) ∈ groupPoints tl ps ↔
      l ≠ [] ∧ l = ps.filter fun p => tl p = k := by
  unfold groupPoints
  suffices H : ∀ (ps : List (F × F)) (m : List (TileID × List (F × F))) (done : List (F × F)), (m.map (·.1)).Nodup →
      (∀ k l, (k, l) ∈ m ↔ l ≠ [] ∧ l = done.filter fun p => tl p = k) →
      ((ps.foldl (fun m p => mapAppend m (tl p) p) m).map (·.1)).Nodup ∧
      ∀ k l, (k, l) ∈ ps.foldl (fun m p => mapAppend m (tl p) p) m ↔
        l ≠ [] ∧ l = (done ++ ps).filter fun p => tl p = k by
    exact H ps [] [] (by simp) (by intro k l; simp)
  intro ps
  induction ps with
  | nil => intro m done h1 h2; simpa using ⟨h1, h2⟩
  | cons p ps ih =>
    intro m done h1 h2
    obtain ⟨i1, i2, i3⟩ := mapAppend_spec m (tl p) p h1
    have := ih (mapAppend m (tl p) p) (done ++ [p]) i1 (by
      intro k l
      rw [i3, List.filter_append]
      have hmem : tl p ∈ m.map (·.1) ↔ done.filter (fun q => tl q = tl p) ≠ [] := by
        rw [List.mem_map]
        constructor
        · rintro ⟨⟨k', l'⟩, h, rfl⟩
          rw [h2] at h; rw [← h.2]; exact h.1
        · intro h
          exact ⟨(tl p, _), (h2 _ _).2 ⟨h, rfl⟩, rfl⟩
      by_cases hk : k = tl p
      · subst hk
        simp only [ne_eq, not_true, false_and, false_or, true_and, List.filter_cons, decide_true, if_true, List.filter_nil]
        constructor
        · rintro (⟨l', h, rfl⟩ | ⟨h, rfl⟩)
          · rw [h2] at h; exact ⟨by simp, by rw [← h.2]⟩
          · rw [hmem, not_not] at h
            exact ⟨by simp, by rw [h]; rfl⟩
        · rintro ⟨_, rfl⟩
          by_cases h : done.filter (fun q => tl q = tl p) = []
          · right; exact ⟨by rw [hmem, not_not]; exact h, by rw [h]; rfl⟩
          · left; exact ⟨_, (h2 _ _).2 ⟨h, rfl⟩, rfl⟩
      · have : ¬ (tl p = k) := fun h => hk h.symm
        simp [hk, h2, this])
    simpa using this

/-- **C40.** `PointClipAboutZoom` of a multi-point, in any order the map is ranged over: one feature per tile, holding exactly
the points of that tile in their original order; no other features. -/
theorem C40_points_by_tile (tl : F × F → TileID) (ps : List (F × F)) (es : List (TileID × List (F × F)))
    (hes : es.Perm (groupPoints tl ps)) :
    (((multiPointAboutZoom es).feats).map (·.1)).Nodup ∧
    ∀ k l, (k, l) ∈ (multiPointAboutZoom es).feats ↔ l ≠ [] ∧ l = ps.filter fun p => tl p = k := by
  obtain ⟨h1, h2⟩ := groupPoints_spec tl ps
  have hf : (multiPointAboutZoom es).feats = es := by
    unfold multiPointAboutZoom
    suffices H : ∀ (es : List (TileID × List (F × F))) (o : PointsOut F), (∀ e ∈ es, e.2 ≠ []) →
        (es.foldl (fun (o : PointsOut F) e => if e.2.length > 0 then ⟨o.feats ++ [e], some e.1⟩ else o) o).feats =
          o.feats ++ es by
      rw [H es ⟨[], none⟩]
      · rfl
      · rintro ⟨k, l⟩ he
        exact ((h2 k l).1 (hes.mem_iff.1 he)).1
    intro es
    induction es with
    | nil => intro o _; simp
    | cons e es ih =>
      intro o h
      have : e.2.length > 0 := List.length_pos_of_ne_nil (h e (by simp))
      rw [List.foldl_cons, if_pos this, ih _ (fun e he => h e (by simp [he]))]
      simp
  rw [hf]
  refine ⟨(hes.map _).nodup_iff.2 h1, ?_⟩
  intro k l; rw [hes.mem_iff]; exact h2 k l

/-- **C40.** Consequently no point is lost or repeated: every tile's feature has as many copies of a point as the input if it
is the point's tile. -/
theorem C40_no_point_lost (tl : F × F → TileID) (ps : List (F × F)) (es : List (TileID × List (F × F)))
    (hes : es.Perm (groupPoints tl ps)) (p : F × F) (hp : p ∈ ps) :
    ∃ l, (tl p, l) ∈ (multiPointAboutZoom es).feats ∧ l.count p = ps.count p ∧
      ∀ k l', (k, l') ∈ (multiPointAboutZoom es).feats → p ∈ l' → k = tl p ∧ l' = l := by
  obtain ⟨_, h2⟩ := C40_points_by_tile tl ps es hes
  refine ⟨ps.filter fun q => tl q = tl p, ?_, ?_, ?_⟩
  · rw [h2]; exact ⟨by intro h; have := List.filter_eq_nil_iff.1 h p hp; simp at this, rfl⟩
  · exact List.count_filter (by simp)
  · intro k l' h hpl
    rw [h2] at h
    have hk : tl p = k := by
      have := hpl; rw [h.2, List.mem_filter] at this; simpa using this.2
    subst hk; exact ⟨rfl, h.2⟩

/-- **C40 (false part).** All features share one property map, so `TILEID` ends up naming one tile only: when the points lie
in two tiles, some returned feature carries the other tile's id. -/
theorem C40_label_wrong (tl : F × F → TileID) (ps : List (F × F)) (es : List (TileID × List (F × F)))
    (hes : es.Perm (groupPoints tl ps)) (p q : F × F) (hp : p ∈ ps) (hq : q ∈ ps) (hpq : tl p ≠ tl q) :
    ∃ k l, (k, l) ∈ (multiPointAboutZoom es).feats ∧ (multiPointAboutZoom es).label ≠ some k := by
  obtain ⟨l1, h1, _⟩ := C40_no_point_lost tl ps es hes p hp
  obtain ⟨l2, h2, _⟩ := C40_no_point_lost tl ps es hes q hq
  by_cases h : (multiPointAboutZoom es).label = some (tl p)
  · exact ⟨_, _, h2, by rw [h]; simpa using hpq⟩
  · exact ⟨_, _, h1, h⟩

/-- **C40.** When all points lie in one tile the label is that tile. -/
theorem C40_label_right (tl : F × F → TileID) (ps : List (F × F)) (es : List (TileID × List (F × F)))
    (hes : es.Perm (groupPoints tl ps)) (t : TileID) (hne : ps ≠ []) (ht : ∀ p ∈ ps, tl p = t) :
    (multiPointAboutZoom es).feats = [(t, ps)] ∧ (multiPointAboutZoom es).label = some t := by
  obtain ⟨h1, h2⟩ := groupPoints_spec tl ps
  have hall : ∀ e ∈ es, e = (t, ps) := by
    rintro ⟨k, l⟩ he
    obtain ⟨hl, e⟩ := (h2 k l).1 (hes.mem_iff.1 he)
    obtain ⟨p, hp⟩ := List.exists_mem_of_ne_nil l hl
    rw [e, List.mem_filter] at hp
    have hk : t = k := by rw [← ht p hp.1]; simpa using hp.2
    subst hk
    rw [List.filter_eq_self.2 (fun p hp => by simp [ht p hp])] at e
    rw [e]
  have hmem : (t, ps) ∈ es := hes.mem_iff.2 ((h2 t ps).2 ⟨hne, (List.filter_eq_self.2 (fun p hp => by simp [ht p hp])).symm⟩)
  have hnd : (es.map (·.1)).Nodup := (hes.map _).nodup_iff.2 h1
  have he : es = [(t, ps)] := by
    cases es with
    | nil => simp at hmem
    | cons e es =>
      cases es with
      | nil => rw [hall e (by simp)]
      | cons e' es =>
        rw [hall e (by simp), hall e' (by simp)] at hnd
        simp at hnd
  subst he
  simp [multiPointAboutZoom, List.length_pos_of_ne_nil hne]


/-- **C40.** `PointClipAboutTile` keeps exactly the points whose tile is the given one, in order, and returns the empty
feature when there is none. -/
theorem C40_about_tile (tl : F × F → TileID) (ps : List (F × F)) (t : TileID) (ht : t.Valid) (hv : ∀ p ∈ ps, (tl p).Valid) :
    multiPointAboutTile tl ps t =
      if (ps.filter fun p => tl p = t) = [] then none else some (ps.filter fun p => tl p = t) := by
  unfold multiPointAboutTile
  have : ps.filter (fun p => isEqual (tl p) t) = ps.filter fun p => tl p = t := by
    apply List.filter_congr
    intro p hp
    rw [Bool.eq_iff_iff, C08_isEqual_iff _ _ (hv p hp) ht]; simp
  rw [this]
  dsimp only
  by_cases h : (ps.filter fun p => tl p = t) = []
  · simp [h]
  · rw [if_neg h, if_pos (List.length_pos_of_ne_nil h)]

/-- **C40.** A single point is returned exactly when its tile is the given one. -/
theorem C40_point_about_tile (tl : F × F → TileID) (p : F × F) (t : TileID) (ht : t.Valid) (hv : (tl p).Valid) :
    pointAboutTile tl p t = true ↔ tl p = t := C08_isEqual_iff _ _ hv ht

end anyArith

/-! ### exact arithmetic -/
section exact
variable {F : Type} [Field F] [LinearOrder F] [IsStrictOrderedRing F]

/-- **C37.** Over any ordered field: the points on the clipped polylines are exactly the points of the input polyline inside
the slab. -/
theorem C37_line_exact (g : List (F × F)) (k1 k2 : F) (ax : Axis) (hk : k1 ≤ k2) (hg : g ≠ []) :
    ∃ out, clipLine g k1 k2 ax false = some out ∧ ∀ p, OnPaths out p ↔ OnPath g p ∧ InSlab ax k1 k2 p := by
  cases g with
  | nil => exact absurd rfl hg
  | cons a rest =>
    obtain ⟨out, ho, _⟩ := clipLoop_line ax hk a rest a ⟨[], []⟩ (by simp)
    refine ⟨out, ho, ?_⟩
    intro p
    obtain ⟨out', ho', h⟩ := clipLoop_line ax hk p rest a ⟨[], []⟩ (by simp)
    obtain rfl : out = out' := by rw [ho] at ho'; simpa using ho'
    rw [h]
    have : OnPath (cur ax k1 k2 [] a) p → OnPath (a :: rest) p ∧ InSlab ax k1 k2 p := by
      intro hc
      by_cases ha : InSlab ax k1 k2 a
      · rw [cur_in ha] at hc
        simp only [List.nil_append, OnPath] at hc
        subst hc; exact ⟨onPath_mem (by simp), ha⟩
      · rw [cur_out ha] at hc; simp [OnPath] at hc
    constructor
    · rintro (h | h | h)
      · simp [OnPaths] at h
      · exact this h
      · exact h
    · intro h; exact .inr (.inr h)

/-- **C37.** The same for several lines. -/
theorem C37_lines_exact (g : List (List (F × F))) (k1 k2 : F) (ax : Axis) (hk : k1 ≤ k2) (hg : ∀ l ∈ g, l ≠ []) :
    ∃ out, clipLines g k1 k2 ax false = some out ∧ ∀ p, OnPaths out p ↔ OnPaths g p ∧ InSlab ax k1 k2 p := by
  induction g with
  | nil => exact ⟨[], rfl, by simp [OnPaths]⟩
  | cons l g ih =>
    obtain ⟨o1, h1, e1⟩ := C37_line_exact l k1 k2 ax hk (hg l (by simp))
    obtain ⟨o2, h2, e2⟩ := ih (fun l hl => hg l (by simp [hl]))
    refine ⟨o1 ++ o2, ?_, ?_⟩
    · unfold clipLines at h2 ⊢
      rw [Option.map_eq_some_iff] at h2
      obtain ⟨os, h3, rfl⟩ := h2
      rw [List.mapM_cons, h1, h3]; rfl
    · intro p
      rw [onPaths_append, e1, e2, show l :: g = [l] ++ g from rfl, onPaths_append, onPaths_single]
      tauto

/-- A line weaving through the slab `[0, 2]`. -/
example : clipLine [((-1 : ℚ), (0 : ℚ)), (1, 0), (3, 4), (1, 8), (-1, 8)] 0 2 .x false =
    some [[(0, 0), (1, 0), (2, 2)], [(2, 6), (1, 8), (0, 8)]] := by decide +kernel

theorem entering_seg {ax : Axis} {k1 k2 : F} {a b q : F × F} (h : q ∈ entering ax k1 k2 a b) : OnSeg a b q := by
  unfold entering at h
  have aux : ∀ v, (coord ax a ≤ v ∧ v ≤ coord ax b) ∨ (coord ax b ≤ v ∧ v ≤ coord ax a) → OnSeg a b (intersect ax a b v) := by
    intro v hv
    by_cases he : coord ax a = coord ax b
    · have : v = coord ax a := by rcases hv with h | h <;> [skip; skip] <;> linarith [h.1, h.2]
      rw [this, intersect_start]; exact onSeg_left _ _
    · rw [intersect_eq _ _ _ _ he]
      refine ⟨_, ?_, ?_, rfl⟩
      · rcases hv with ⟨h1, h2⟩ | ⟨h1, h2⟩
        · exact div_nonneg (by linarith) (by linarith)
        · exact div_nonneg_of_nonpos (by linarith) (by linarith)
      · rcases hv with ⟨h1, h2⟩ | ⟨h1, h2⟩
        · have : 0 < coord ax b - coord ax a := by
            rcases lt_or_gt_of_ne he with h | h <;> linarith
          rw [div_le_one this]; linarith
        · have : coord ax b - coord ax a < 0 := by
            rcases lt_or_gt_of_ne he with h | h <;> linarith
          rw [div_le_one_of_neg this]; linarith
  split at h
  · split at h
    · simp at h; subst h; rename_i h1 h2; exact aux _ (.inl ⟨h1, h2⟩)
    · simp at h
  · split at h
    · split at h
      · simp at h; subst h; rename_i h1 h2; exact aux _ (.inr ⟨h2, h1⟩)
      · simp at h
    · simp at h; subst h; exact onSeg_left _ _

theorem leaving_seg {ax : Axis} {k1 k2 : F} (hk : k1 ≤ k2) {a b q : F × F} (h : q ∈ leaving ax k1 k2 a b) : OnSeg a b q := by
  have hx : exited ax k1 k2 a b = true := by
    unfold leaving at h
    unfold exited
    rcases List.mem_append.1 h with h | h
    · split at h
      · rename_i h'; simp [h'.1, h'.2]
      · simp at h
    · split at h
      · rename_i h'; simp [h'.1, h'.2]
      · simp at h
  have hm : q ∈ segPts ax k1 k2 a b := by simp [segPts, h]
  exact ((segPts_path ax hk a b q).1 (onPath_mem hm)).1

/-- Vertices of a clipped line or ring stay in any convex set that contains the input's vertices. -/
theorem clipLoop_convex (C : F × F → Prop) (hC : ∀ a b q, C a → C b → OnSeg a b q → C q) (ring : Bool) (ax : Axis) {k1 k2 : F}
    (hk : k1 ≤ k2) : ∀ (g : List (F × F)) (st : St F) (out : List (List (F × F))), (∀ q ∈ g, C q) → (∀ q ∈ st.slice, C q) →
    (∀ l ∈ st.out, ∀ q ∈ l, C q) → clipLoop ring ax k1 k2 g st = some out → ∀ l ∈ out, ∀ q ∈ l, C q := by
  intro g
  induction g with
  | nil => intro st out _ _ _ h; simp [clipLoop] at h
  | cons a g ih =>
    intro st out hg hs ho h
    cases g with
    | nil =>
      simp only [clipLoop, Option.some.injEq] at h
      subst h
      unfold finish
      have h1 : ∀ q ∈ (if coord ax a ≥ k1 ∧ coord ax a ≤ k2 then st.slice ++ [a] else st.slice), C q := by
        split
        · intro q hq
          rcases List.mem_append.1 hq with hq | hq
          · exact hs q hq
          · simp at hq; subst hq; exact hg _ (by simp)
        · exact hs
      generalize (if coord ax a ≥ k1 ∧ coord ax a ≤ k2 then st.slice ++ [a] else st.slice) = s at h1 ⊢
      have h2 : ∀ q ∈ closeRing ring s, C q := by
        unfold closeRing
        split
        · rename_i f l hf hl
          split
          · intro q hq
            rcases List.mem_append.1 hq with hq | hq
            · exact h1 q hq
            · simp at hq; subst hq; exact h1 _ (List.mem_of_mem_head? hf)
          · exact h1
        · exact h1
      dsimp only
      generalize closeRing ring s = s' at h2 ⊢
      by_cases hlen : s'.length > 0
      · rw [if_pos hlen]; intro l hl
        rcases List.mem_append.1 hl with hl | hl
        · exact ho l hl
        · simp only [List.mem_singleton] at hl; subst hl; exact h2
      · rw [if_neg hlen]; exact ho
    | cons b g =>
      rw [clipLoop] at h
      have hall : ∀ q ∈ st.slice ++ entering ax k1 k2 a b ++ leaving ax k1 k2 a b, C q := by
        intro q hq
        have ha := hg a (by simp)
        have hb := hg b (by simp)
        rcases List.mem_append.1 hq with hq | hq
        · rcases List.mem_append.1 hq with hq | hq
          · exact hs q hq
          · exact hC a b q ha hb (entering_seg hq)
        · exact hC a b q ha hb (leaving_seg hk hq)
      refine ih _ out (fun q hq => hg q (by simp [hq])) ?_ ?_ h
      · unfold segStep
        dsimp only
        split
        · simp
        · exact hall
      · unfold segStep
        dsimp only
        split
        · intro l hl
          rcases List.mem_append.1 hl with hl | hl
          · exact ho l hl
          · simp only [List.mem_singleton] at hl; subst hl; exact hall
        · exact ho

theorem lintPolygon_pts {p7 : F} {p l : List (List (F × F))} (h : lintPolygon p7 p = some l) :
    ∀ r ∈ l, ∀ q ∈ r, q ∈ p.flatten := by
  intro r hr q hq
  obtain ⟨m, hm, h1⟩ := ListAux.mapM_mem h hr
  have : q ∈ m := by
    unfold lintRing at h1
    split at h1
    · rename_i f l' hf hl'
      simp only [Option.some.injEq] at h1
      have hfm := List.mem_of_mem_head? hf
      subst h1
      split at hq
      · rcases List.mem_append.1 hq with hq | hq
        · exact hq
        · simp at hq; subst hq; exact hfm
      · rcases List.mem_append.1 hq with hq | hq
        · exact List.dropLast_subset _ hq
        · simp at hq; subst hq; exact hfm
    · simp at h1
  exact List.mem_flatten.2 ⟨m, hm, this⟩

theorem clip_convex (C : F × F → Prop) (hC : ∀ a b q, C a → C b → OnSeg a b q → C q) (p7 : F) (g : Geom F) {k1 k2 : F}
    (ax : Axis) (hk : k1 ≤ k2) (out : Geom F) (h : clip p7 g k1 k2 ax = some out) (hg : ∀ q ∈ g.pts, C q) :
    ∀ q ∈ out.pts, C q := by
  have hline : ∀ (l : List (F × F)) (ring : Bool) (o : List (List (F × F))), clipLine l k1 k2 ax ring = some o →
      (∀ q ∈ l, C q) → ∀ l ∈ o, ∀ q ∈ l, C q := by
    intro l ring o ho hl
    exact clipLoop_convex C hC ring ax hk l ⟨[], []⟩ o hl (by simp) (by simp) ho
  have hlines : ∀ (ls : List (List (F × F))) (ring : Bool) (o : List (List (F × F))),
      clipLines ls k1 k2 ax ring = some o → (∀ l ∈ ls, ∀ q ∈ l, C q) → ∀ l ∈ o, ∀ q ∈ l, C q := by
    intro ls ring o ho hls l hl q hq
    obtain ⟨m, hm, o', ho', hl'⟩ := clipLines_mem ho hl
    exact hline m ring o' ho' (hls m hm) l hl' q hq
  have hcase : ∀ ls : List (List (F × F)), (∀ l ∈ ls, ∀ q ∈ l, C q) → ∀ q ∈ (lineResult ls).pts, C q := by
    intro ls h q hq
    unfold lineResult at hq
    split at hq
    · rename_i one
      exact h one (List.mem_singleton.2 rfl) q hq
    · simp only [Geom.pts] at hq
      obtain ⟨l, hl, hql⟩ := List.mem_flatten.1 hq
      exact h l hl q hql
  cases g with
  | lineString l =>
    simp only [clip, Option.map_eq_some_iff] at h
    obtain ⟨ls, h1, rfl⟩ := h
    exact hcase ls (hline l false ls h1 hg)
  | multiLine l =>
    simp only [clip, Option.map_eq_some_iff] at h
    obtain ⟨ls, h1, rfl⟩ := h
    exact hcase ls (hlines l false ls h1 fun m hm q hq => hg q (List.mem_flatten.2 ⟨m, hm, hq⟩))
  | polygon p =>
    simp only [clip, Option.bind_eq_bind, Option.bind_eq_some_iff, Option.pure_def, Option.some.injEq] at h
    obtain ⟨p', h1, ls, h2, rfl⟩ := h
    intro q hq
    obtain ⟨l, hl, hql⟩ := List.mem_flatten.1 hq
    exact hlines p' true ls h2 (fun m hm q hq => hg q (lintPolygon_pts h1 m hm q hq)) l hl q hql
  | multiPolygon ps =>
    simp only [clip, Option.bind_eq_bind, Option.bind_eq_some_iff, Option.pure_def, Option.some.injEq] at h
    obtain ⟨ps', h1, r, h2, h3⟩ := h
    have hr : ∀ p ∈ r, ∀ l ∈ p, ∀ q ∈ l, C q := by
      unfold clipMultiPolygon at h2
      rw [Option.map_eq_some_iff] at h2
      obtain ⟨r0, h4, rfl⟩ := h2
      intro p hp
      obtain ⟨m, hm, h5⟩ := ListAux.mapM_mem h4 (List.mem_of_mem_filter hp)
      obtain ⟨p0, hp0, h6⟩ := ListAux.mapM_mem h1 hm
      refine hlines _ true _ h5 ?_
      intro l hl q hq
      have := lintPolygon_pts h6 l hl q hq
      obtain ⟨l0, hl0, hq0⟩ := List.mem_flatten.1 this
      exact hg q (List.mem_flatten.2 ⟨l0, List.mem_flatten.2 ⟨p0, hp0, hl0⟩, hq0⟩)
    subst h3
    unfold polyResult
    split
    · intro q hq
      obtain ⟨l, hl, hql⟩ := List.mem_flatten.1 hq
      exact hr _ (by simp) l hl q hql
    · intro q hq
      obtain ⟨l, hl, hql⟩ := List.mem_flatten.1 hq
      obtain ⟨p, hp, hlp⟩ := List.mem_flatten.1 hl
      exact hr p hp l hlp q hql
  | empty => simp [clip] at h; subst h; simp [Geom.pts]
  | point => simp [clip] at h; subst h; simp [Geom.pts]
  | multiPoint => simp [clip] at h; subst h; simp [Geom.pts]
  | multiLineString => simp [clip] at h; subst h; simp [Geom.pts]
  | square => simp [clip] at h; subst h; simp [Geom.pts]

theorem slab_convex (ax : Axis) (k1 k2 : F) (a b q : F × F) (ha : InSlab ax k1 k2 a) (hb : InSlab ax k1 k2 b)
    (h : OnSeg a b q) : InSlab ax k1 k2 q := by
  obtain ⟨t, h0, h1, rfl⟩ := h
  unfold InSlab at *
  rw [coord_lerp]
  constructor <;> nlinarith [ha.1, ha.2, hb.1, hb.2]

/-- Clipping x then y leaves all vertices in the box. -/
theorem clip_both (p7 : F) (g g1 g2 : Geom F) (w e s n : F) (hx : w ≤ e) (hy : s ≤ n)
    (h1 : clip p7 g w e .x = some g1) (h2 : clip p7 g1 s n .y = some g2) :
    ∀ q ∈ g2.pts, (w ≤ q.1 ∧ q.1 ≤ e) ∧ (s ≤ q.2 ∧ q.2 ≤ n) := by
  intro q hq
  exact ⟨clip_convex (InSlab .x w e) (slab_convex .x w e) p7 g1 .y hy g2 h2 (C36_clip_in_slab p7 g w e .x hx g1 h1) q hq,
    C36_clip_in_slab p7 g1 s n .y hy g2 h2 q hq⟩

theorem makefeature_pts {g out : Geom F} (h : makefeature g = some out) : ∀ q ∈ out.pts, q ∈ g.pts := by
  unfold makefeature at h
  split at h <;> simp at h <;> subst h
  · intro q hq; simp [Geom.pts] at hq ⊢; tauto
  · intro q hq; simp [Geom.pts] at hq
  · exact fun q hq => hq

/-- **C36.** Over exact arithmetic every vertex of `ClipTile(feature, tile)` lies in the tile's box. -/
theorem C36_clipTile_in_box (p7 : F) (g out : Geom F) (b : Box F) (hx : b.W ≤ b.E) (hy : b.S ≤ b.N)
    (h : clipTile p7 g b = some out) : ∀ q ∈ out.pts, InBox b q := by
  unfold clipTile at h
  simp only [Option.bind_eq_bind, Option.bind_eq_some_iff] at h
  obtain ⟨g1, h1, g2, h2, h3⟩ := h
  have hb := clip_both p7 g g1 g2 _ _ _ _ hx hy h1 h2
  exact fun q hq => hb q (makefeature_pts h3 q hq)

/-- **C38.** Over exact arithmetic clipping a closed ring changes nothing strictly inside the slab: the same points lie on
the resulting ring as on the input ring. (On the slab's two border lines the result may have additional edges.) -/
theorem C38_ring_exact (g : List (F × F)) (k1 k2 : F) (ax : Axis) (hk : k1 ≤ k2) (hg : g ≠ []) (hc : g.head? = g.getLast?) :
    ∃ out, clipLine g k1 k2 ax true = some out ∧
      ∀ p, k1 < coord ax p → coord ax p < k2 → (OnPaths out p ↔ OnPath g p) := by
  cases g with
  | nil => exact absurd rfl hg
  | cons a rest =>
    have hv : (a :: rest).getLast? = some a := by rw [← hc]; rfl
    have H := fun p hp => clipLoop_ring ax hk a p hp rest a ⟨[], []⟩ hv (by intro z hz; simp at hz)
      (by
        intro z hz
        by_cases ha : InSlab ax k1 k2 a
        · rw [cur_in ha] at hz
          simp at hz
          exact ⟨fun _ => hz.symm, fun h => absurd ha.1 (not_le.2 h), fun h => absurd ha.2 (not_le.2 h)⟩
        · rw [cur_out ha] at hz; simp at hz)
      (by intro z hz; simp at hz) (by intro _; exact .inl rfl) rfl
    have hex : ∃ out, clipLine (a :: rest) k1 k2 ax true = some out := by
      unfold clipLine
      have : ∀ (g : List (F × F)) (b : F × F) (st : St F), ∃ out, clipLoop true ax k1 k2 (b :: g) st = some out := by
        intro g
        induction g with
        | nil => intro b st; exact ⟨_, rfl⟩
        | cons c g ih => intro b st; rw [clipLoop]; exact ih c _
      exact this rest a _
    obtain ⟨out, ho⟩ := hex
    refine ⟨out, ho, ?_⟩
    intro p h1 h2
    obtain ⟨out', ho', h⟩ := H p ⟨h1, h2⟩
    obtain rfl : out = out' := by unfold clipLine at ho; rw [ho] at ho'; simpa using ho'
    rw [h]
    constructor
    · rintro (hcur | h)
      · by_cases ha : InSlab ax k1 k2 a
        · rw [cur_in ha] at hcur
          simp only [List.nil_append, OnPath] at hcur
          subst hcur; exact onPath_mem (by simp)
        · rw [cur_out ha] at hcur; simp [OnPath] at hcur
      · exact h
    · exact .inr

theorem clipLoop_inside (ring : Bool) (ax : Axis) {k1 k2 : F} : ∀ (rest : List (F × F)) (a : F × F) (s : List (F × F)),
    (∀ q ∈ a :: rest, InSlab ax k1 k2 q) →
    clipLoop ring ax k1 k2 (a :: rest) ⟨s, []⟩ = some [closeRing ring (s ++ a :: rest)] := by
  intro rest
  induction rest with
  | nil =>
    intro a s h
    have ha : coord ax a ≥ k1 ∧ coord ax a ≤ k2 := h a (by simp)
    have hlen : (closeRing ring (s ++ [a])).length > 0 := by
      unfold closeRing
      split
      · split <;> simp
      · simp
    simp only [clipLoop, finish, if_pos ha, if_pos hlen, List.nil_append]
  | cons b rest ih =>
    intro a s h
    have ha := h a (by simp)
    have hb := h b (by simp)
    have hx : exited ax k1 k2 a b = false := by
      rw [← Bool.not_eq_true]; exact fun hx => exited_out ax a b hx hb
    have hE : entering ax k1 k2 a b ++ leaving ax k1 k2 a b = [a] := by
      have hL : leaving ax k1 k2 a b = [] := by
        unfold leaving; rw [if_neg (fun h => absurd hb.1 (not_le.2 h.1)), if_neg (fun h => absurd hb.2 (not_le.2 h.1))]; rfl
      rw [hL, List.append_nil]
      unfold entering
      by_cases c : coord ax a ≤ k1
      · obtain e : coord ax a = k1 := le_antisymm c ha.1
        rw [if_pos c, if_pos hb.1, ← e, intersect_start]
      · rw [if_neg c]
        by_cases c2 : coord ax a ≥ k2
        · obtain e : coord ax a = k2 := le_antisymm ha.2 c2
          rw [if_pos c2, if_pos hb.2, ← e, intersect_start]
        · rw [if_neg c2]
    rw [clipLoop]
    have : segStep ring ax k1 k2 ⟨s, []⟩ a b = ⟨s ++ [a], []⟩ := by
      simp [segStep, hx, hE]
    rw [this, ih b (s ++ [a]) (fun q hq => h q (by simp [hq]))]
    simp

/-- **C38.** A closed ring, or any line, whose vertices all lie in the slab comes back unchanged. -/
theorem C38_inside_unchanged (g : List (F × F)) (k1 k2 : F) (ax : Axis) (ring : Bool) (hg : g ≠ [])
    (hc : ring = true → g.head? = g.getLast?) (h : ∀ q ∈ g, InSlab ax k1 k2 q) : clipLine g k1 k2 ax ring = some [g] := by
  cases g with
  | nil => exact absurd rfl hg
  | cons a rest =>
    unfold clipLine
    rw [clipLoop_inside ring ax rest a [] h]
    have : closeRing ring (a :: rest) = a :: rest := by
      unfold closeRing
      cases ring with
      | false => split <;> simp
      | true =>
        have := hc rfl
        rw [← this]; simp
    simp [this]

/-- A square cut in half: the border edge is added and the ring closed. -/
example : clipLine [((0 : ℚ), (0 : ℚ)), (4, 0), (4, 4), (0, 4), (0, 0)] 1 3 .x true =
    some [[(1, 0), (3, 0), (3, 4), (1, 4), (1, 0)]] := by decide +kernel

/-- The pieces that `clipLine` makes of a line are its stretches in the slab. -/
theorem clipLoop_stretches (ax : Axis) {k1 k2 : F} (hk : k1 ≤ k2) : ∀ (g : List (F × F)) (st : St F) (out : List (List (F × F))),
    (∀ a r, g = a :: r → st.slice = [] ∨ (k1 ≤ coord ax a ∧ coord ax a ≤ k2)) → clipLoop false ax k1 k2 g st = some out →
    out.length = st.out.length + stretches ax k1 k2 g := by
  intro g
  induction g with
  | nil => intro st out _ h; simp [clipLoop] at h
  | cons a g ih =>
    intro st out hst h
    cases g with
    | nil =>
      simp only [clipLoop, Option.some.injEq] at h
      subst h
      unfold finish closeRing stretches
      dsimp only
      by_cases hin : k1 ≤ coord ax a ∧ coord ax a ≤ k2
      · rw [if_pos hin, if_pos (show coord ax a ≥ k1 ∧ coord ax a ≤ k2 from hin)]
        split <;> simp
      · have hs := (hst a [] rfl).resolve_right hin
        rw [if_neg hin, if_neg (show ¬ (coord ax a ≥ k1 ∧ coord ax a ≤ k2) from hin), hs]
        simp
    | cons c g =>
      rw [clipLoop] at h
      have hex : exited ax k1 k2 a c = decide ((k1 ≤ coord ax a ∧ coord ax c < k1) ∨ (coord ax a ≤ k2 ∧ k2 < coord ax c)) := by
        unfold exited
        rw [Bool.eq_iff_iff]
        simp only [Bool.or_eq_true, Bool.and_eq_true, decide_eq_true_eq, ge_iff_le, gt_iff_lt]
        tauto
      rw [stretches]
      by_cases hx : (k1 ≤ coord ax a ∧ coord ax c < k1) ∨ (coord ax a ≤ k2 ∧ k2 < coord ax c)
      · rw [if_pos hx]
        have e : segStep false ax k1 k2 st a c = ⟨[], st.out ++ [st.slice ++ entering ax k1 k2 a c ++ leaving ax k1 k2 a c]⟩ := by
          unfold segStep; simp [hex, hx]
        rw [e] at h
        have := ih _ out (by intro _ _ _; exact .inl rfl) h
        simp only [List.length_append, List.length_singleton] at this
        omega
      · rw [if_neg hx]
        have e : segStep false ax k1 k2 st a c = ⟨st.slice ++ entering ax k1 k2 a c ++ leaving ax k1 k2 a c, st.out⟩ := by
          unfold segStep; simp only [hex, decide_eq_false hx, Bool.not_false, Bool.true_and, Bool.false_eq_true, if_false]
        rw [e] at h
        refine (ih _ out ?_ h).trans (by simp)
        intro a' r' har
        simp only [List.cons.injEq] at har
        obtain ⟨rfl, rfl⟩ := har
        simp only
        by_cases hc : k1 ≤ coord ax c ∧ coord ax c ≤ k2
        · exact .inr hc
        · left
          push Not at hx hc
          have hs : st.slice = [] := by
            rcases hst a _ rfl with h0 | h0
            · exact h0
            · exfalso
              by_cases h1 : k1 ≤ coord ax c
              · exact absurd (hc h1) (not_lt.mpr (hx.2 h0.2))
              · exact h1 (hx.1 h0.1)
          have hen : entering ax k1 k2 a c = [] := by
            unfold entering
            by_cases h1 : k1 ≤ coord ax c
            · have h2 := hc h1
              have h3 : ¬ coord ax a ≤ k2 := fun h => absurd (hx.2 h) (not_le.mpr h2)
              rw [if_neg (fun h => h3 (h.trans hk)), if_pos (le_of_not_ge h3), if_neg (not_le.mpr h2)]
            · have h3 : ¬ k1 ≤ coord ax a := fun h => h1 (hx.1 h)
              rw [if_pos (le_of_not_ge h3), if_neg h1]
          have hle : leaving ax k1 k2 a c = [] := by
            unfold leaving
            rw [if_neg, if_neg]
            · rfl
            · rintro ⟨h1, h2⟩; exact absurd (hx.2 h2) (not_le.mpr h1)
            · rintro ⟨h1, h2⟩; exact absurd (hx.1 h2) (not_le.mpr h1)
          rw [hs, hen, hle]; rfl

/-- Lemma for C39: one piece on the first axis. -/
theorem line_one_piece (p7 : F) (l m : List (F × F)) (b : Box F) (hx : b.W ≤ b.E) (hy : b.S ≤ b.N) (hl : l ≠ [])
    (hm : clip p7 (.lineString l) b.W b.E .x = some (.lineString m)) :
    ∃ ls, clipTile p7 (.lineString l) b = some (lineResult ls) ∧ ∀ p, OnPaths ls p ↔ OnPath l p ∧ InBox b p := by
  obtain ⟨o1, h1, e1⟩ := C37_line_exact l b.W b.E .x hx hl
  have ho1 : o1 = [m] := by
    simp only [clip, h1, Option.map_some, Option.some.injEq] at hm
    unfold lineResult at hm
    split at hm
    · simpa using hm
    · simp at hm
  subst ho1
  have hmne : m ≠ [] := by
    rintro rfl
    -- a piece is never empty
    have : ∀ q, ¬ OnPath ([] : List (F × F)) q := by simp [OnPath]
    have hslice : ∀ (g : List (F × F)) (st : St F) (out : List (List (F × F))), (∀ l ∈ st.out, l ≠ []) →
        clipLoop false .x b.W b.E g st = some out → ∀ l ∈ out, l ≠ [] := by
      intro g
      induction g with
      | nil => intro st out _ h; simp [clipLoop] at h
      | cons a g ih =>
        intro st out hst h
        cases g with
        | nil =>
          simp only [clipLoop, Option.some.injEq] at h
          subst h
          unfold finish
          dsimp only
          generalize closeRing false (if coord Axis.x a ≥ b.W ∧ coord Axis.x a ≤ b.E then st.slice ++ [a] else st.slice) = s
          split
          · rename_i hlen
            intro l hl
            rcases List.mem_append.1 hl with hl | hl
            · exact hst l hl
            · simp only [List.mem_singleton] at hl; subst hl
              exact List.length_pos_iff.1 hlen
          · exact hst
        | cons c g =>
          rw [clipLoop] at h
          refine ih _ out ?_ h
          unfold segStep
          dsimp only
          split
          · rename_i hx
            intro l hl
            rcases List.mem_append.1 hl with hl | hl
            · exact hst l hl
            · simp only [List.mem_singleton] at hl; subst hl
              intro hnil
              simp only [List.append_eq_nil_iff] at hnil
              have h2 := hnil.2
              simp only [Bool.not_false, Bool.true_and] at hx
              unfold exited at hx
              unfold leaving at h2
              simp only [List.append_eq_nil_iff] at h2
              simp only [Bool.or_eq_true, Bool.and_eq_true, decide_eq_true_eq] at hx
              rcases hx with hx | hx
              · have := h2.1; rw [if_pos hx] at this; simp at this
              · have := h2.2; rw [if_pos hx] at this; simp at this
          · exact hst
    exact hslice l ⟨[], []⟩ [[]] (by simp) h1 [] (by simp) rfl
  obtain ⟨o2, h2, e2⟩ := C37_line_exact m b.S b.N .y hy hmne
  refine ⟨o2, ?_, ?_⟩
  · unfold clipTile
    rw [hm]
    simp only [Option.bind_eq_bind, Option.bind_some]
    simp only [clip, h2, Option.map_some, Option.bind_some]
    unfold lineResult
    split <;> rfl
  · intro p
    rw [e2, ← onPaths_single, e1]
    unfold InBox InSlab coord
    tauto

/-- **C39.** `ClipTile` of a LineString, exactly, over any ordered field: if the line has one stretch in the tile's longitude range, the
result is the exact intersection of the line with the tile; otherwise the result has no geometry, even if the line meets the tile. -/
theorem C39_line_exact_or_dropped (p7 : F) (l : List (F × F)) (b : Box F) (hx : b.W ≤ b.E) (hy : b.S ≤ b.N) (hl : l ≠ []) :
    (stretches .x b.W b.E l = 1 → ∃ ls, clipTile p7 (.lineString l) b = some (lineResult ls) ∧ ∀ p, OnPaths ls p ↔ OnPath l p ∧ InBox b p) ∧
    (stretches .x b.W b.E l ≠ 1 → clipTile p7 (.lineString l) b = some .empty) := by
  obtain ⟨o1, h1, e1⟩ := C37_line_exact l b.W b.E .x hx hl
  have hlen : o1.length = stretches .x b.W b.E l := by
    have := clipLoop_stretches .x hx l ⟨[], []⟩ o1 (fun _ _ _ => .inl rfl) h1
    simpa using this
  constructor
  · intro h
    rw [h] at hlen
    obtain ⟨m, rfl⟩ := List.length_eq_one_iff.mp hlen
    exact line_one_piece p7 l m b hx hy hl (by simp only [clip, h1, Option.map_some, lineResult])
  · intro h
    have e : lineResult o1 = .multiLineString o1 := by
      unfold lineResult
      split
      · exact absurd hlen.symm h
      · rfl
    unfold clipTile
    simp only [clip, h1, Option.map_some, e, Option.bind_eq_bind, Option.bind_some]
    rfl

/-- A line that crosses the tile has one stretch; one that turns back outside has two. -/
example : stretches .x (0 : ℚ) 2 [(-1, 0), (3, 2)] = 1 ∧ stretches .x (0 : ℚ) 2 [(1, 1), (3, 1), (1, 2)] = 2 := by decide +kernel

/-- **C39.** A line whose longitudes all lie in the tile's range is clipped exactly. -/
theorem C39_line_in_range_exact (p7 : F) (l : List (F × F)) (b : Box F) (hx : b.W ≤ b.E) (hy : b.S ≤ b.N) (hl : l ≠ [])
    (hin : ∀ q ∈ l, b.W ≤ q.1 ∧ q.1 ≤ b.E) :
    ∃ ls, clipTile p7 (.lineString l) b = some (lineResult ls) ∧ ∀ p, OnPaths ls p ↔ OnPath l p ∧ InBox b p := by
  refine (C39_line_exact_or_dropped p7 l b hx hy hl).1 ?_
  induction l with
  | nil => exact absurd rfl hl
  | cons a l ih =>
    cases l with
    | nil => rw [stretches]; exact if_pos (hin a (by simp))
    | cons c l =>
      rw [stretches, ih (by simp) (fun q hq => hin q (by simp [hq])), if_neg]
      rintro (⟨_, h⟩ | ⟨_, h⟩)
      · exact absurd (hin c (by simp)).1 (not_le.mpr h)
      · exact absurd (hin c (by simp)).2 (not_le.mpr h)

/-- The hypothesis holds for a line that crosses the tile once. -/
example : clip (1 / 10000000 : ℚ) (.lineString [(-1, 0), (3, 2)]) 0 2 .x = some (.lineString [(0, 1 / 2), (2, 3 / 2)]) := by
  decide +kernel

/-- **C39 (false part).** A line that leaves the tile's longitude range and comes back loses everything. -/
theorem C39_line_reentry_dropped :
    clipTile (1 / 10000000 : ℚ) (.lineString [(1, 1), (3, 1), (1, 2)]) ⟨0, 0, 2, 4⟩ = some .empty ∧
      OnPath [((1 : ℚ), (1 : ℚ)), (3, 1), (1, 2)] (1, 1) ∧ InBox (⟨0, 0, 2, 4⟩ : Box ℚ) (1, 1) := by
  refine ⟨by decide +kernel, onPath_mem (by simp), ?_⟩
  unfold InBox; norm_num

end exact
end Verif.Clip
