import Verif.Props.MvtArea
import Verif.Props.MvtClipFeature
import Verif.Props.TileID

/-!
# C68 for ClipFeature: no part of a polygon is lost
-/
namespace Verif.Clip
open Verif.Tid Verif.Go

/-- Geometries `ClipFeature` can cut further without a panic. -/
def Sane (g : Geom ℝ) : Prop := g.IsArea ∧ g ≠ .polygon []

theorem keep_entries (Q : Geom ℝ → Prop) : ∀ (ts : List TileID) (rs : List (Option (Geom ℝ))),
    (∀ r ∈ rs, ∀ g ∈ r, ∃ g2, makefeature g = some g2 ∧ Q g2) →
    ∃ cs, (((ts.zip rs).filterMap fun p => p.2.map fun g => (p.1, g)).mapM fun p => (makefeature p.2).map fun g => (p.1, g)) = some cs ∧
      (cs.map Prod.fst).Sublist ts ∧ (∀ e ∈ cs, Q e.2) ∧
      ∀ t g, (t, some g) ∈ ts.zip rs → ∃ g2, makefeature g = some g2 ∧ (t, g2) ∈ cs := by
  intro ts
  induction ts with
  | nil => intro rs _; exact ⟨[], by simp, by simp, by simp, by simp⟩
  | cons t ts ih =>
    intro rs h
    cases rs with
    | nil => exact ⟨[], by simp, by simp, by simp, by simp⟩
    | cons r rs =>
      obtain ⟨cs, h1, h2, h3, h4⟩ := ih rs (fun r hr => h r (by simp [hr]))
      cases r with
      | none =>
        refine ⟨cs, by simpa [List.filterMap_cons] using h1, h2.cons _, h3, ?_⟩
        intro t' g hm
        simp only [List.zip_cons_cons, List.mem_cons, Prod.mk.injEq, reduceCtorEq, and_false, false_or] at hm
        exact h4 t' g hm
      | some g =>
        obtain ⟨g2, m1, m2⟩ := h (some g) (by simp) g rfl
        refine ⟨(t, g2) :: cs, ?_, ?_, ?_, ?_⟩
        · simp [List.mapM_cons, m1, h1]
        · simpa using h2
        · intro e he
          rcases List.mem_cons.1 he with rfl | he
          · exact m2
          · exact h3 e he
        · intro t' g' hm
          simp only [List.zip_cons_cons, List.mem_cons, Prod.mk.injEq, Option.some.injEq] at hm
          rcases hm with ⟨rfl, rfl⟩ | hm
          · exact ⟨g2, m1, by simp⟩
          · obtain ⟨g3, e1, e2⟩ := h4 t' g' hm
            exact ⟨g3, e1, by simp [e2]⟩

/-- The square a child gets: covers everything well inside. -/
theorem square_covers (w s e n m : ℝ) (hm : 0 ≤ m) (p : ℝ × ℝ) (hd : DeepInBox ⟨w, s, e, n⟩ m p) :
    (Geom.polygon [[(e, n), (w, n), (w, s), (e, s), (e, n)]]).covers .y p = true ∧
      FarFrom m (Geom.polygon [[(e, n), (w, n), (w, s), (e, s), (e, n)]]).rings p := by
  obtain ⟨⟨h1, h2⟩, ⟨h3, h4⟩⟩ := hd
  simp only [coord] at h1 h2 h3 h4
  have a1 : ¬ n ≤ p.2 := by linarith
  have a2 : s ≤ p.2 := by linarith
  have a3 : ¬ p.1 < w := by linarith
  have a4 : p.1 < e := by linarith
  constructor
  · simp [Geom.covers, inside, closed, parity, meets, coord, oth, a1, a2, a3, a4]
  · intro r hr q hq hn
    simp only [Geom.rings, List.mem_singleton] at hr
    subst hr
    obtain ⟨n1, n2⟩ := hn
    rw [abs_le] at n1 n2
    simp only [closed, List.cons_append, List.nil_append, OnPath] at hq
    rcases hq with ⟨t, _, _, rfl⟩ | ⟨t, _, _, rfl⟩ | ⟨t, _, _, rfl⟩ | ⟨t, _, _, rfl⟩ | ⟨t, _, _, rfl⟩ | rfl <;>
      simp only [lerp, sub_self, mul_zero, add_zero] at n1 n2 <;> linarith [n1.1, n1.2, n2.1, n2.2]

theorem power7_nonneg : (0 : ℝ) ≤ power7 := by unfold power7; norm_num

/-- The children of one entry: nothing panics, and where the entry covers a point its child does. -/
theorem childEntries_area (k : TileID) (hk : k.InGrid) (hz : k.Z ≤ 60) (g : Geom ℝ) (hg : Sane g) :
    ∃ cs, childEntries k g = some cs ∧ (∀ e ∈ cs, e.1 ∈ children k ∧ Sane e.2) ∧ (cs.map Prod.fst).Nodup ∧
      ∀ m : ℝ, 0 ≤ m → ∀ p, FarFrom (m + 2 * power7) g.rings p → g.covers .y p = true → ∀ c ∈ children k,
        DeepInBox (tileBox c) (m + power7) p → ∃ g', (c, g') ∈ cs ∧ g'.covers .y p = true ∧ FarFrom m g'.rings p := by
  obtain ⟨a, b, c, d, mx, my, hch, hm1, hm2, hp1, hp2, ha, hb, hc, hd⟩ := C04_children_edges k (inGrid_noOverflow hk hz)
  have ba : tileBox a = ⟨(bounds k).W, my, mx, (bounds k).N⟩ := by unfold tileBox; rw [ha]
  have bb : tileBox b = ⟨mx, my, (bounds k).E, (bounds k).N⟩ := by unfold tileBox; rw [hb]
  have bc : tileBox c = ⟨mx, (bounds k).S, (bounds k).E, my⟩ := by unfold tileBox; rw [hc]
  have bd : tileBox d = ⟨(bounds k).W, (bounds k).S, mx, my⟩ := by unfold tileBox; rw [hd]
  have hnodup : [a, b, c, d].Nodup := by rw [← hch]; exact (C03_children_distinct_in_grid k hk (by omega)).2.1
  unfold childEntries
  rw [hch]
  simp only [ba, bb, bc, bd, Option.bind_eq_bind]
  have bk : tileBox k = ⟨(bounds k).W, (bounds k).S, (bounds k).E, (bounds k).N⟩ := rfl
  rw [bk]
  generalize (bounds k).W = w at *
  generalize (bounds k).E = e at *
  generalize (bounds k).S = s at *
  generalize (bounds k).N = n at *
  obtain ⟨hA, hne⟩ := hg
  cases hsq : isTileSquare power7 g ⟨w, s, e, n⟩ with
  | false =>
    obtain ⟨r0, r1, r2, r3, h1, h2⟩ := children_area power7 power7_nonneg g hA hne w mx e s my n hsq
    have hkept : ∀ r ∈ [r0, r1, r2, r3], ∀ g' ∈ r, ∃ g2, makefeature g' = some g2 ∧ (Sane g2 ∧ g2 = g') := by
      have key := clipDownTile_sane power7 g hA hne w mx e s my n hsq _ h1
      intro r hr g' hg'
      obtain ⟨k1, k2⟩ := key r hr g' hg'
      exact ⟨g', makefeature_area k1 k2, ⟨k1, k2⟩, rfl⟩
    obtain ⟨cs, i1, i2, i3, i4⟩ := keep_entries (fun g => Sane g) [a, b, c, d] [r0, r1, r2, r3] (by
      intro r hr g' hg'; obtain ⟨g2, j1, j2⟩ := hkept r hr g' hg'; exact ⟨g2, j1, j2.1⟩)
    refine ⟨cs, by rw [h1]; exact i1, fun x hx => ⟨?_, i3 x hx⟩, i2.nodup hnodup, ?_⟩
    · exact i2.subset (List.mem_map_of_mem hx)
    · intro m hm p hfar hcov c' hc' hdeep
      have fin : ∀ (bx : Box ℝ) (r : Option (Geom ℝ)), (c', r) ∈ [a, b, c, d].zip [r0, r1, r2, r3] → tileBox c' = bx →
          (bx, r) ∈ [((⟨w, my, mx, n⟩ : Box ℝ), r0), (⟨mx, my, e, n⟩, r1), (⟨mx, s, e, my⟩, r2), (⟨w, s, mx, my⟩, r3)] →
          ∃ g', (c', g') ∈ cs ∧ g'.covers .y p = true ∧ FarFrom m g'.rings p := by
        intro bx r hz hbx hmem
        rw [hbx] at hdeep
        obtain ⟨j1, j2⟩ := h2 m hm p hfar (bx, r) hmem hdeep
        rw [hcov] at j1
        cases r with
        | none => simp [optCovers] at j1
        | some g' =>
          obtain ⟨g2, l1, l2⟩ := i4 c' g' hz
          obtain ⟨g3, o1, o2, o3⟩ := hkept (some g') (by
            simp only [List.zip_cons_cons, List.zip_nil_right, List.mem_cons, Prod.mk.injEq, List.not_mem_nil, or_false] at hz
            rcases hz with ⟨_, h⟩ | ⟨_, h⟩ | ⟨_, h⟩ | ⟨_, h⟩ <;> simp [h]) g' rfl
          rw [l1] at o1
          obtain rfl : g2 = g3 := by simpa using o1
          subst o3
          exact ⟨g2, l2, j1, j2 g2 rfl⟩
      simp only [List.mem_cons, List.not_mem_nil, or_false] at hc'
      rcases hc' with rfl | rfl | rfl | rfl
      · exact fin _ r0 (by simp) ba (by simp)
      · exact fin _ r1 (by simp) bb (by simp)
      · exact fin _ r2 (by simp) bc (by simp)
      · exact fin _ r3 (by simp) bd (by simp)
  | true =>
    have h1 : clipDownTile power7 g ⟨w, s, e, n⟩ ⟨w, my, mx, n⟩ ⟨mx, my, e, n⟩ ⟨mx, s, e, my⟩ ⟨w, s, mx, my⟩ =
        some [some (.square w my mx n), some (.square mx my e n), some (.square mx s e my), some (.square w s mx my)] := by
      have : ∀ g : Geom ℝ, g.IsArea → g ≠ .polygon [] → isTileSquare power7 g ⟨w, s, e, n⟩ = true →
          clipDownTile power7 g ⟨w, s, e, n⟩ ⟨w, my, mx, n⟩ ⟨mx, my, e, n⟩ ⟨mx, s, e, my⟩ ⟨w, s, mx, my⟩ =
        some [some (.square w my mx n), some (.square mx my e n), some (.square mx s e my), some (.square w s mx my)] := by
        intro g hA hne hsq
        unfold clipDownTile
        split
        · exact absurd rfl hne
        · exact absurd rfl (hA [] (by simp))
        · simp [hsq]
      exact this g hA hne hsq
    obtain ⟨cs, i1, i2, i3, i4⟩ := keep_entries Sane [a, b, c, d]
      [some (.square w my mx n), some (.square mx my e n), some (.square mx s e my), some (.square w s mx my)] (by
        intro r hr g' hg'
        simp only [List.mem_cons, List.not_mem_nil, or_false] at hr
        rcases hr with rfl | rfl | rfl | rfl <;>
          (simp only [Option.mem_def, Option.some.injEq] at hg'; subst hg'; exact ⟨_, rfl, by simp [Geom.IsArea], by simp⟩))
    refine ⟨cs, by rw [h1]; exact i1, fun x hx => ⟨?_, i3 x hx⟩, i2.nodup hnodup, ?_⟩
    · exact i2.subset (List.mem_map_of_mem hx)
    · intro m hm p hfar hcov c' hc' hdeep
      have p7 := power7_nonneg
      have weak : ∀ bx : Box ℝ, DeepInBox bx (m + power7) p → DeepInBox bx m p := by
        rintro bx ⟨⟨q1, q2⟩, ⟨q3, q4⟩⟩
        exact ⟨⟨by linarith, by linarith⟩, ⟨by linarith, by linarith⟩⟩
      simp only [List.mem_cons, List.not_mem_nil, or_false] at hc'
      rcases hc' with rfl | rfl | rfl | rfl
      · obtain ⟨g2, l1, l2⟩ := i4 c' (.square w my mx n) (by simp)
        rw [ba] at hdeep
        simp only [makefeature, Option.some.injEq] at l1; subst l1
        exact ⟨_, l2, square_covers _ _ _ _ m hm p (weak _ hdeep)⟩
      · obtain ⟨g2, l1, l2⟩ := i4 c' (.square mx my e n) (by simp)
        rw [bb] at hdeep
        simp only [makefeature, Option.some.injEq] at l1; subst l1
        exact ⟨_, l2, square_covers _ _ _ _ m hm p (weak _ hdeep)⟩
      · obtain ⟨g2, l1, l2⟩ := i4 c' (.square mx s e my) (by simp)
        rw [bc] at hdeep
        simp only [makefeature, Option.some.injEq] at l1; subst l1
        exact ⟨_, l2, square_covers _ _ _ _ m hm p (weak _ hdeep)⟩
      · obtain ⟨g2, l1, l2⟩ := i4 c' (.square w s mx my) (by simp)
        rw [bd] at hdeep
        simp only [makefeature, Option.some.injEq] at l1; subst l1
        exact ⟨_, l2, square_covers _ _ _ _ m hm p (weak _ hdeep)⟩

/-! ### the levels -/

theorem mapSet_keys (m : List (TileID × Geom ℝ)) (k : TileID) (g : Geom ℝ) (h : (m.map Prod.fst).Nodup) :
    ((mapSet m k g).map Prod.fst).Nodup := by
  unfold mapSet
  rw [List.map_append, List.nodup_append]
  refine ⟨(List.filter_sublist.map Prod.fst).nodup h, by simp, ?_⟩
  intro a ha b hb
  simp only [List.mem_map, List.mem_filter, decide_eq_true_eq] at ha
  obtain ⟨x, ⟨_, hx⟩, rfl⟩ := ha
  simp at hb; subst hb
  simpa using hx

theorem foldl_mapSet_keys (cs : List (TileID × Geom ℝ)) : ∀ (m : List (TileID × Geom ℝ)), (m.map Prod.fst).Nodup →
    ((cs.foldl (fun m p => mapSet m p.1 p.2) m).map Prod.fst).Nodup := by
  induction cs with
  | nil => intro m h; exact h
  | cons c cs ih => intro m h; exact ih _ (mapSet_keys m c.1 c.2 h)

theorem foldl_mapSet_stay (cs : List (TileID × Geom ℝ)) : ∀ (m : List (TileID × Geom ℝ)) (e : TileID × Geom ℝ), e ∈ m →
    e.1 ∉ cs.map Prod.fst → e ∈ cs.foldl (fun m p => mapSet m p.1 p.2) m := by
  induction cs with
  | nil => intro m e h _; exact h
  | cons c cs ih =>
    intro m e h hn
    simp only [List.map_cons, List.mem_cons, not_or] at hn
    refine ih _ e ?_ hn.2
    unfold mapSet
    rw [List.mem_append, List.mem_filter]
    exact .inl ⟨h, by simpa using hn.1⟩

theorem foldl_mapSet_new (cs : List (TileID × Geom ℝ)) : ∀ (m : List (TileID × Geom ℝ)) (e : TileID × Geom ℝ), e ∈ cs →
    (cs.map Prod.fst).Nodup → e ∈ cs.foldl (fun m p => mapSet m p.1 p.2) m := by
  induction cs with
  | nil => intro m e h _; simp at h
  | cons c cs ih =>
    intro m e h hn
    simp only [List.map_cons, List.nodup_cons] at hn
    rcases List.mem_cons.1 h with rfl | h
    · refine foldl_mapSet_stay cs _ e ?_ hn.1
      unfold mapSet; simp
    · exact ih _ e h hn.2

/-- Every entry of the map: a tile of the grid with polygons that can be cut further. -/
def AllSane (hi : Nat) (m : List (TileID × Geom ℝ)) : Prop := ∀ e ∈ m, e.1.InGrid ∧ e.1.Z ≤ hi ∧ Sane e.2

/-- A level that is not about the point's tile keeps what is there; nothing panics. -/
theorem levelStep_area (keep : Bool) (cz hi : Nat) (hcz : cz + 1 ≤ hi) (hhi : hi ≤ 60) (P P' : Geom ℝ → Prop) (k c : TileID) (hkg : k.InGrid)
    (hkz : k.Z = cz) (hck : c ∈ children k)
    (hP : ∀ g, Sane g → ∀ cs, childEntries k g = some cs → P g → ∃ g', (c, g') ∈ cs ∧ P' g') :
    ∀ (es m : List (TileID × Geom ℝ)) (last : Nat), AllSane hi es → (∀ e ∈ es, e.1.Z = cz) → AllSane hi m → (m.map Prod.fst).Nodup →
    (es.map Prod.fst).Nodup →
    (((∃ g, (c, g) ∈ m ∧ P' g) ∧ last = cz + 1 ∧ k ∉ es.map Prod.fst) ∨ ((∃ g, (k, g) ∈ es ∧ P g) ∧ (last = 0 ∨ last = cz + 1))) →
    ∃ m', levelStep keep es m last = some (m', cz + 1) ∧ AllSane hi m' ∧ (m'.map Prod.fst).Nodup ∧ ∃ g, (c, g) ∈ m' ∧ P' g := by
  have hcg := child_inGrid hkg (by omega) hck
  intro es
  induction es with
  | nil =>
    intro m last _ _ hm hnd _ h
    rcases h with ⟨h1, h2, _⟩ | ⟨⟨g, h, _⟩, _⟩
    · exact ⟨m, by rw [levelStep, h2], hm, hnd, h1⟩
    · simp at h
  | cons e es ih =>
    intro m last hes hz hm hnd hned h
    obtain ⟨k', g⟩ := e
    obtain ⟨q1, q2, q3⟩ := hes (k', g) (by simp)
    have hZ := hz (k', g) (by simp)
    simp only at q1 q2 q3 hZ
    obtain ⟨cs, c1, c2, c3, c4⟩ := childEntries_area k' q1 (by omega) g q3
    simp only [List.map_cons, List.nodup_cons] at hned
    simp only [levelStep, Option.bind_eq_bind, c1, Option.bind_some]
    have hcs : ∀ e ∈ cs, e.1.InGrid ∧ e.1.Z = cz + 1 ∧ Sane e.2 := by
      intro e he
      obtain ⟨d1, d2⟩ := c2 e he
      obtain ⟨d3, d4⟩ := child_inGrid q1 (by omega) d1
      exact ⟨d3, by omega, d2⟩
    have hm1 : AllSane hi (cs.foldl (fun m p => mapSet m p.1 p.2) m) := by
      intro e he
      rcases foldl_mapSet_mem cs m e he with he | he
      · exact hm e he
      · obtain ⟨d1, d2, d3⟩ := hcs e he; exact ⟨d1, by omega, d3⟩
    have hn1 := foldl_mapSet_keys cs m hnd
    obtain ⟨m1, hm1d⟩ : ∃ m1, m1 = cs.foldl (fun m p => mapSet m p.1 p.2) m := ⟨_, rfl⟩
    rw [← hm1d] at hm1 hn1 ⊢
    obtain ⟨m2, hm2d⟩ : ∃ m2, m2 = (if keep then m1 else m1.filter (fun p => p.1 ≠ k')) := ⟨_, rfl⟩
    have hsub : m2.Sublist m1 := by
      rw [hm2d]; split
      · exact List.Sublist.refl _
      · exact List.filter_sublist
    have hstay : ∀ e ∈ m1, e.1 ≠ k' → e ∈ m2 := by
      intro e he hne
      rw [hm2d]; split
      · exact he
      · rw [List.mem_filter]; exact ⟨he, by simpa using hne⟩
    rw [← hm2d]
    have hck' : c ≠ k' := by
      rintro rfl; have := hcg.2; omega
    have hlast : ∀ l, l = 0 ∨ l = cz + 1 → cs.foldl (fun l p => if p.1.Z ≠ 0 then p.1.Z else l) l = 0 ∨
        cs.foldl (fun l p => if p.1.Z ≠ 0 then p.1.Z else l) l = cz + 1 :=
      fun l hl => lastZ cs (cz + 1) (fun e he => (hcs e he).2.1) l hl
    have hlast1 : ∀ l, (l = cz + 1 ∨ cs ≠ []) → cs.foldl (fun l p => if p.1.Z ≠ 0 then p.1.Z else l) l = cz + 1 := by
      clear c1 c2 c3 c4 hm1d hlast
      induction cs with
      | nil => intro l hl; simpa using hl
      | cons x cs ih2 =>
        intro l _
        rw [List.foldl_cons]
        have hx := (hcs x (by simp)).2.1
        rw [if_pos (by omega)]
        exact ih2 (fun e he => hcs e (by simp [he])) _ (.inl hx)
    refine ih m2 _ (fun e he => hes e (by simp [he])) (fun e he => hz e (by simp [he]))
      (fun e he => hm1 e (hsub.subset he)) ((hsub.map Prod.fst).nodup hn1) hned.2 ?_
    by_cases hkk : k' = k
    · subst hkk
      left
      rcases h with ⟨_, _, h⟩ | ⟨⟨g1, h1, h2⟩, h3⟩
      · simp at h
      · have : g1 = g := by
          rcases List.mem_cons.1 h1 with h1 | h1
          · exact (Prod.mk.inj h1).2
          · exact absurd (List.mem_map_of_mem (f := Prod.fst) h1) hned.1
        subst this
        obtain ⟨g', l1, l2⟩ := hP g1 q3 cs c1 h2
        refine ⟨⟨g', hstay _ ?_ hck', l2⟩, hlast1 _ (.inr (by rintro rfl; simp at l1)), hned.1⟩
        rw [hm1d]; exact foldl_mapSet_new cs m _ l1 c3
    · rcases h with ⟨⟨g1, h1, h2⟩, h3, h4⟩ | ⟨⟨g1, h1, h2⟩, h3⟩
      · left
        refine ⟨⟨g1, hstay _ ?_ hck', h2⟩, hlast1 _ (.inl h3), fun hh => h4 (by simp only [List.map_cons]; exact List.mem_cons_of_mem _ hh)⟩
        rw [hm1d]
        apply foldl_mapSet_stay cs m _ h1
        intro hin
        obtain ⟨e, he, hec⟩ := List.mem_map.1 hin
        simp only at hec
        exact hkk (C03_children_disjoint k' k c q1 hkg (by omega) (by omega) (by rw [← hec]; exact (c2 e he).1) hck)
      · right
        refine ⟨⟨g1, ?_, h2⟩, hlast _ h3⟩
        rcases List.mem_cons.1 h1 with h1 | h1
        · exact absurd (Prod.mk.inj h1).1.symm hkk
        · exact h1

theorem descends_first {u t : TileID} (h : Descends u t) : u = t ∨ ∃ c, c ∈ children u ∧ u.Z < 63 ∧ Descends c t := by
  induction h with
  | refl => exact .inl rfl
  | step h1 h2 h3 ih =>
    rename_i v x
    rcases ih with rfl | ⟨c, hc, hz, hd⟩
    · exact .inr ⟨x, h3, h2, .refl⟩
    · exact .inr ⟨c, hc, hz, .step hd h2 h3⟩

theorem child_deep {u c : TileID} (hu : u.InGrid) (hz : u.Z ≤ 60) (hc : c ∈ children u) {m : ℝ} {p : ℝ × ℝ} (h : DeepInBox (tileBox c) m p) :
    DeepInBox (tileBox u) m p := by
  obtain ⟨a, b, c', d, mx, my, hch, hm1, hm2, hp1, hp2, ha, hb, hc', hd⟩ := C04_children_edges u (inGrid_noOverflow hu hz)
  rw [hch] at hc
  obtain ⟨⟨h1, h2⟩, ⟨h3, h4⟩⟩ := h
  simp only [List.mem_cons, List.not_mem_nil, or_false] at hc
  unfold tileBox at *
  rcases hc with rfl | rfl | rfl | rfl
  · rw [ha] at h1 h2 h3 h4; exact ⟨⟨by simp only at *; linarith, by simp only at *; linarith⟩, ⟨by simp only at *; linarith, by simp only at *; linarith⟩⟩
  · rw [hb] at h1 h2 h3 h4; exact ⟨⟨by simp only at *; linarith, by simp only at *; linarith⟩, ⟨by simp only at *; linarith, by simp only at *; linarith⟩⟩
  · rw [hc'] at h1 h2 h3 h4; exact ⟨⟨by simp only at *; linarith, by simp only at *; linarith⟩, ⟨by simp only at *; linarith, by simp only at *; linarith⟩⟩
  · rw [hd] at h1 h2 h3 h4; exact ⟨⟨by simp only at *; linarith, by simp only at *; linarith⟩, ⟨by simp only at *; linarith, by simp only at *; linarith⟩⟩

theorem descends_zoom {u t : TileID} (hu : u.InGrid) (hz : u.Z ≤ 63) (h : Descends u t) : u.Z ≤ t.Z := by
  induction h with
  | refl => exact le_rfl
  | step h1 h2 h3 ih =>
    have := (children_inGrid (descends_inGrid hu hz h1).1 h2 h3).2
    omega

theorem descends_deep {u t : TileID} (h : Descends u t) (hu : u.InGrid) (huz : u.Z ≤ 63) (ht : t.Z ≤ 60) {m : ℝ} {p : ℝ × ℝ}
    (hd : DeepInBox (tileBox t) m p) : DeepInBox (tileBox u) m p := by
  induction h with
  | refl => exact hd
  | step h1 h2 h3 ih =>
    rename_i v x
    obtain ⟨g1, g2⟩ := descends_inGrid hu huz h1
    have hx := children_inGrid g1 h2 h3
    exact ih (by omega) (child_deep g1 (by omega) h3 hd)

/-- C68: `ClipFeature` of a polygon or multi-polygon loses no part of it, for every end zoom, iteration order of the maps, with or
without parents: it neither panics nor runs for ever, and a point covered by the polygon is covered by the geometry stored for the
end-zoom tile the point is in, if it is farther from the polygon's edges and from that tile's border than 2/10^7 for each zoom level
below the feature's first tile. -/
theorem C68_feature (order : List (TileID × Geom ℝ) → List (TileID × Geom ℝ)) (horder : ∀ m, (order m).Perm m)
    (fuel : Nat) (g : Geom ℝ) (hg : g.IsArea) (hne : g ≠ .polygon []) (bb : Box ℝ) (endzoom : Nat) (keep : Bool) (hend : endzoom ≤ 60)
    (hgrid : (getFirstZoom bb).2.InGrid) (hz : (getFirstZoom bb).1 = (getFirstZoom bb).2.Z)
    (hfirst : (getFirstZoom bb).1 < endzoom) (hfuel : endzoom ≤ fuel)
    (p : ℝ × ℝ) (t : TileID) (ht : Descends (getFirstZoom bb).2 t) (htz : t.Z = endzoom)
    (hfar : FarFrom (2 * (1 / 10 ^ 7 : ℝ) * (endzoom - (getFirstZoom bb).2.Z)) g.rings p)
    (hdeep : DeepInBox (tileBox t) (2 * (1 / 10 ^ 7 : ℝ) * (endzoom - (getFirstZoom bb).2.Z)) p) (hc : g.covers .y p = true) :
    ∃ m, clipFeature order fuel g bb endzoom keep = some (some m) ∧ ∃ g', (t, g') ∈ m ∧ g'.covers .y p = true := by
  have hp7e : (1 / 10 ^ 7 : ℝ) = power7 := by unfold power7; norm_num
  rw [hp7e] at hfar hdeep
  unfold clipFeature
  simp only [if_neg (not_le.2 hfirst)]
  generalize (getFirstZoom bb).2 = t0 at *
  generalize (getFirstZoom bb).1 = z0 at *
  subst hz
  have hp7 := power7_nonneg
  suffices H : ∀ (n fuel : Nat) (u : TileID) (m0 : List (TileID × Geom ℝ)), n ≤ fuel → u.InGrid → u.Z + n = endzoom → Descends u t →
      AllSane endzoom m0 → (m0.map Prod.fst).Nodup → DeepInBox (tileBox t) (2 * power7 * n) p →
      (∃ g', (u, g') ∈ m0 ∧ g'.covers .y p = true ∧ FarFrom (2 * power7 * n) g'.rings p) →
      ∃ m, clipLevels keep order endzoom fuel u.Z m0 = some (some m) ∧ ∃ g', (t, g') ∈ m ∧ g'.covers .y p = true by
    have hn : ((endzoom - t0.Z : Nat) : ℝ) = endzoom - t0.Z := by rw [Nat.cast_sub (by omega)]
    refine H (endzoom - t0.Z) fuel t0 [(t0, g)] (by omega) hgrid (by omega) ht ?_ (by simp) (by rw [hn]; exact hdeep)
      ⟨g, by simp, hc, by rw [hn]; exact hfar⟩
    intro e he
    simp only [List.mem_singleton] at he; subst he
    exact ⟨hgrid, by simp only; omega, hg, hne⟩
  intro n
  induction n with
  | zero =>
    intro fuel u m0 _ hu huz hd hm hnd _ hcov
    obtain rfl : u = t := by
      rcases descends_first hd with h | ⟨c, hc1, hc2, hc3⟩
      · exact h
      · have := children_inGrid hu hc2 hc1
        have := descends_zoom this.1 (by omega) hc3
        omega
    refine ⟨m0, ?_, ?_⟩
    · unfold clipLevels; rw [if_neg (by omega)]
    · obtain ⟨g', h1, h2, _⟩ := hcov; exact ⟨g', h1, h2⟩
  | succ n ih =>
    intro fuel u m0 hfu hu huz hd hm hnd hdp hcov
    obtain ⟨f, rfl⟩ : ∃ f, fuel = f + 1 := ⟨fuel - 1, by omega⟩
    obtain ⟨c, hc1, hc3⟩ : ∃ c, c ∈ children u ∧ Descends c t := by
      rcases descends_first hd with h | ⟨c, hc1, hc2, hc3⟩
      · subst h; omega
      · exact ⟨c, hc1, hc3⟩
    obtain ⟨hcg, hcz⟩ := child_inGrid hu (by omega) hc1
    have hmn : 0 ≤ 2 * power7 * (n : ℝ) := by positivity
    have hdp' : DeepInBox (tileBox t) (2 * power7 * n) p := by
      obtain ⟨⟨q1, q2⟩, ⟨q3, q4⟩⟩ := hdp
      push_cast at q1 q2 q3 q4
      exact ⟨⟨by linarith, by linarith⟩, ⟨by linarith, by linarith⟩⟩
    have hcdeep : DeepInBox (tileBox c) (2 * power7 * n + power7) p := by
      apply descends_deep hc3 hcg (by omega) (by omega)
      obtain ⟨⟨q1, q2⟩, ⟨q3, q4⟩⟩ := hdp
      push_cast at q1 q2 q3 q4
      exact ⟨⟨by linarith, by linarith⟩, ⟨by linarith, by linarith⟩⟩
    have hi : ∀ e ∈ m0, i64 (e.1.Z : Int) = (e.1.Z : Int) := fun e he => i64_small (by have := (hm e he).2.1; omega)
    have hmem : ∀ e, e ∈ (order m0).filter (fun p => i64 p.1.Z = (u.Z : Int)) ↔ e ∈ m0 ∧ e.1.Z = u.Z := by
      intro e
      rw [List.mem_filter, (horder m0).mem_iff]
      constructor
      · rintro ⟨h1, h2⟩
        rw [hi e h1] at h2
        exact ⟨h1, by simpa using h2⟩
      · rintro ⟨h1, h2⟩
        refine ⟨h1, ?_⟩
        rw [hi e h1]
        simpa using h2
    obtain ⟨m', s1, s2, s3, s4⟩ := levelStep_area keep u.Z endzoom (by omega) hend
      (fun g' => g'.covers .y p = true ∧ FarFrom (2 * power7 * (n + 1 : Nat)) g'.rings p)
      (fun g' => g'.covers .y p = true ∧ FarFrom (2 * power7 * n) g'.rings p) u c hu rfl hc1
      (by
        rintro g1 hs1 cs hcs ⟨hg1, hg2⟩
        obtain ⟨cs', d1, _, _, d4⟩ := childEntries_area u hu (by omega) g1 hs1
        rw [hcs] at d1
        obtain rfl : cs = cs' := by simpa using d1
        refine d4 (2 * power7 * n) hmn p ?_ hg1 c hc1 hcdeep
        rw [show 2 * power7 * (n : ℝ) + 2 * power7 = 2 * power7 * ((n + 1 : Nat) : ℝ) by push_cast; ring]
        exact hg2)
      ((order m0).filter fun p => i64 p.1.Z = (u.Z : Int)) m0 0
      (fun e he => hm e ((hmem e).1 he).1) (fun e he => ((hmem e).1 he).2) hm hnd
      ((List.filter_sublist.map Prod.fst).nodup (((horder m0).map Prod.fst).nodup_iff.2 hnd))
      (.inr ⟨by
        obtain ⟨g', h1, h2, h3⟩ := hcov
        exact ⟨g', (hmem _).2 ⟨h1, rfl⟩, h2, h3⟩, .inl rfl⟩)
    obtain ⟨mfin, f1, f2⟩ := ih f c m' (by omega) hcg (by omega) hc3 s2 s3 hdp' s4
    refine ⟨mfin, ?_, f2⟩
    unfold clipLevels
    rw [if_pos (by omega)]
    simp only [s1]
    rw [i64_small (by omega), ← hcz]
    exact f1

/-- The conditions of `C68_tile` are met by a square of side 4, the tile from (2,2) to (6,6) and the point (3,3) they share. -/
example : DeepInBox (⟨2, 2, 6, 6⟩ : Box ℝ) power7 (3, 3) ∧
    FarFrom (2 * power7) (Geom.polygon [[((4 : ℝ), (4 : ℝ)), (0, 4), (0, 0), (4, 0), (4, 4)]]).rings (3, 3) ∧
    (Geom.polygon [[((4 : ℝ), (4 : ℝ)), (0, 4), (0, 0), (4, 0), (4, 4)]]).covers .y (3, 3) = true := by
  have h : DeepInBox (⟨0, 0, 4, 4⟩ : Box ℝ) (2 * power7) (3, 3) := by
    unfold DeepInBox DeepIn coord power7; norm_num
  have := square_covers 0 0 4 4 (2 * power7) (by unfold power7; norm_num) (3, 3) h
  refine ⟨by unfold DeepInBox DeepIn coord power7; norm_num, this.2, this.1⟩

/-- The conditions of `C68_feature` are met by a rectangle around the centre of the world, the point (10,10) and its tile at zoom 1. -/
theorem C68_feature_example :
    let g : Geom ℝ := .polygon [[(90, 45), (-90, 45), (-90, -45), (90, -45), (90, 45)]]
    getFirstZoom ⟨-90, -45, 90, 45⟩ = (0, ⟨0, 0, 0⟩) ∧ (⟨0, 0, 0⟩ : TileID).InGrid ∧ Descends ⟨0, 0, 0⟩ ⟨1, 0, 1⟩ ∧ Sane g ∧
      FarFrom (2 * power7 * ((1 : Nat) - (0 : Nat))) g.rings (10, 10) ∧
      DeepInBox (tileBox ⟨1, 0, 1⟩) (2 * power7 * ((1 : Nat) - (0 : Nat))) (10, 10) ∧ g.covers .y (10, 10) = true := by
  intro g
  have h : DeepInBox (⟨-90, -45, 90, 45⟩ : Box ℝ) (2 * power7 * ((1 : Nat) - (0 : Nat))) (10, 10) := by
    unfold DeepInBox DeepIn coord power7; norm_num
  have hsq := square_covers (-90) (-45) 90 45 (2 * power7 * ((1 : Nat) - (0 : Nat))) (by unfold power7; norm_num) (10, 10) h
  refine ⟨C61_world_example, by unfold TileID.InGrid; norm_num, .step .refl (by norm_num) (by decide), ⟨by simp [g, Geom.IsArea], by simp [g]⟩,
    hsq.2, ?_, hsq.1⟩
  have hpi := Real.pi_pos
  have hat' : Real.pi / 4 < Real.arctan (Real.sinh Real.pi) := by
    rw [← Real.arctan_one]; apply Real.arctan_strictMono
    have := Real.self_le_sinh_iff.2 hpi.le
    linarith [Real.two_le_pi]
  have h45 : 45 < 180 / Real.pi * Real.arctan (Real.sinh Real.pi) := by
    have : 180 / Real.pi * (Real.pi / 4) = 45 := by field_simp; norm_num
    calc (45 : ℝ) = 180 / Real.pi * (Real.pi / 4) := this.symm
      _ < _ := mul_lt_mul_of_pos_left hat' (by positivity)
  unfold tileBox bounds ul DeepInBox DeepIn coord power7
  simp only [Int.cast_zero, Int.cast_one, zero_div, zero_mul, mul_zero, sub_zero, mul_one, zero_add, pow_one, Nat.cast_one, Nat.cast_zero]
  have e : Real.pi * (1 - 2 * 1 / 2) = 0 := by ring
  norm_num
  linarith

end Verif.Clip
