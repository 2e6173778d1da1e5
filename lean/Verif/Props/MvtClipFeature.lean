import Verif.Props.MvtClip

/-!
# C60, C61: ClipFeature
-/
namespace Verif.Clip
open Verif.Tid Verif.Go

theorem childEntries_in_box (k : TileID) (hk : NoOverflow k) (g : Geom ℝ) (cs : List (TileID × Geom ℝ))
    (h : childEntries k g = some cs) : ∀ e ∈ cs, e.1 ∈ children k ∧ ∀ q ∈ e.2.pts, InBox (tileBox e.1) q := by
  obtain ⟨a, b, c, d, m, p, hch, hm1, hm2, hp1, hp2, ha, hb, hc, hd⟩ := C04_children_edges k hk
  unfold childEntries at h
  rw [hch] at h ⊢
  simp only [Option.bind_eq_bind, Option.bind_eq_some_iff] at h
  obtain ⟨r, hr, hmk⟩ := h
  have ba : tileBox a = ⟨(bounds k).W, p, m, (bounds k).N⟩ := by unfold tileBox; rw [ha]
  have bb : tileBox b = ⟨m, p, (bounds k).E, (bounds k).N⟩ := by unfold tileBox; rw [hb]
  have bc : tileBox c = ⟨m, (bounds k).S, (bounds k).E, p⟩ := by unfold tileBox; rw [hc]
  have bd : tileBox d = ⟨(bounds k).W, (bounds k).S, m, p⟩ := by unfold tileBox; rw [hd]
  -- every kept geometry is inside its child's box
  have hin : ∃ r0 r1 r2 r3, r = [r0, r1, r2, r3] ∧ (∀ g' ∈ r0, ∀ q ∈ g'.pts, InBox (tileBox a) q) ∧
      (∀ g' ∈ r1, ∀ q ∈ g'.pts, InBox (tileBox b) q) ∧ (∀ g' ∈ r2, ∀ q ∈ g'.pts, InBox (tileBox c) q) ∧
      (∀ g' ∈ r3, ∀ q ∈ g'.pts, InBox (tileBox d) q) := by
    have sq : ∀ (bx : Box ℝ), bx.W ≤ bx.E → bx.S ≤ bx.N →
        ∀ g' ∈ (some (Geom.square bx.W bx.S bx.E bx.N) : Option (Geom ℝ)), ∀ q ∈ g'.pts, InBox bx q := by
      intro bx h1 h2 g' hg' q hq
      simp only [Option.mem_def, Option.some.injEq] at hg'
      subst hg'
      simp only [Geom.pts, List.mem_cons, List.not_mem_nil, or_false] at hq
      unfold InBox
      rcases hq with rfl | rfl | rfl | rfl <;> simp [h1, h2]
    have kp : ∀ (v g' : Geom ℝ), g' ∈ (if isEmpty v then none else some v : Option (Geom ℝ)) → g' = v := by
      intro v g' h
      split at h <;> simp at h
      exact h.symm
    unfold clipDownTile at hr
    split at hr
    · simp at hr
    · simp at hr
    · split at hr
      · simp only [Option.some.injEq] at hr
        refine ⟨_, _, _, _, hr.symm, sq _ ?_ ?_, sq _ ?_ ?_, sq _ ?_ ?_, sq _ ?_ ?_⟩ <;>
          simp only [ba, bb, bc, bd] <;> linarith
      · simp only [Option.bind_eq_bind, Option.bind_eq_some_iff, Option.pure_def, Option.some.injEq] at hr
        obtain ⟨l, hl, r', hr', ld, hld, lu, hlu, rd, hrd, ru, hru, heq⟩ := hr
        rw [ba] at hl hr' hld hlu hrd hru
        have bk : tileBox k = ⟨(bounds k).W, (bounds k).S, (bounds k).E, (bounds k).N⟩ := rfl
        rw [bk] at hl hr' hld hlu hrd hru
        refine ⟨_, _, _, _, heq.symm, ?_, ?_, ?_, ?_⟩
        · intro g' hg'; rw [kp _ _ hg', ba]
          exact clip_both power7 _ l lu _ _ _ _ hm1.le hp2.le hl hlu
        · intro g' hg'; rw [kp _ _ hg', bb]
          exact clip_both power7 _ r' ru _ _ _ _ hm2.le hp2.le hr' hru
        · intro g' hg'; rw [kp _ _ hg', bc]
          exact clip_both power7 _ r' rd _ _ _ _ hm2.le hp1.le hr' hrd
        · intro g' hg'; rw [kp _ _ hg', bd]
          exact clip_both power7 _ l ld _ _ _ _ hm1.le hp1.le hl hld
  obtain ⟨r0, r1, r2, r3, rfl, h0, h1, h2, h3⟩ := hin
  intro e he
  obtain ⟨⟨t, g'⟩, hp, hf⟩ := ListAux.mapM_mem hmk he
  simp only [Option.map_eq_some_iff] at hf
  obtain ⟨g'', hg'', rfl⟩ := hf
  rw [List.mem_filterMap] at hp
  obtain ⟨⟨t', og⟩, hz, hmap⟩ := hp
  simp only [Option.map_eq_some_iff, Prod.mk.injEq] at hmap
  obtain ⟨g0, hog, rfl, rfl⟩ := hmap
  subst hog
  simp only [List.zip_cons_cons, List.zip_nil_right, List.mem_cons, Prod.mk.injEq, List.not_mem_nil, or_false] at hz
  rcases hz with ⟨rfl, rfl⟩ | ⟨rfl, rfl⟩ | ⟨rfl, rfl⟩ | ⟨rfl, rfl⟩
  · exact ⟨by simp, fun q hq => h0 g0 rfl q (makefeature_pts hg'' q hq)⟩
  · exact ⟨by simp, fun q hq => h1 g0 rfl q (makefeature_pts hg'' q hq)⟩
  · exact ⟨by simp, fun q hq => h2 g0 rfl q (makefeature_pts hg'' q hq)⟩
  · exact ⟨by simp, fun q hq => h3 g0 rfl q (makefeature_pts hg'' q hq)⟩

theorem inGrid_noOverflow {t : TileID} (h : t.InGrid) (hz : t.Z ≤ 60) : NoOverflow t := by
  obtain ⟨h1, h2, h3, h4⟩ := h
  have : (2 : Int) ^ t.Z ≤ 2 ^ 60 := pow_le_pow_right₀ (by norm_num) hz
  unfold NoOverflow
  norm_num at this
  refine ⟨?_, ?_, ?_, ?_, ?_⟩ <;> omega

theorem child_inGrid {t c : TileID} (h : t.InGrid) (hz : t.Z ≤ 60) (hc : c ∈ children t) : c.InGrid ∧ c.Z = t.Z + 1 := by
  have ho := inGrid_noOverflow h hz
  obtain ⟨h1, h2, h3, h4⟩ := h
  have hp : (2 : Int) ^ (t.Z + 1) = 2 * 2 ^ t.Z := by rw [pow_succ]; ring
  rw [children_eq t ho] at hc
  simp only [List.mem_cons, List.not_mem_nil, or_false] at hc
  unfold TileID.InGrid
  rcases hc with rfl | rfl | rfl | rfl <;> (simp only [hp, and_true]; refine ⟨?_, ?_, ?_, ?_⟩ <;> omega)

/-- The map entries: the start entry itself, or a tile of the grid with a geometry inside its box. -/
def EntryOK (t0 : TileID) (g0 : Geom ℝ) (hi : Nat) (e : TileID × Geom ℝ) : Prop :=
  e.1.InGrid ∧ e.1.Z ≤ hi ∧ (e = (t0, g0) ∨ ∀ q ∈ e.2.pts, InBox (tileBox e.1) q)

theorem mapSet_mem {m : List (TileID × Geom ℝ)} {k : TileID} {g : Geom ℝ} {e : TileID × Geom ℝ} (h : e ∈ mapSet m k g) :
    (e ∈ m ∧ e.1 ≠ k) ∨ e = (k, g) := by
  unfold mapSet at h
  rcases List.mem_append.1 h with h | h
  · rw [List.mem_filter] at h; exact .inl ⟨h.1, by simpa using h.2⟩
  · exact .inr (by simpa using h)

theorem foldl_mapSet_mem (cs : List (TileID × Geom ℝ)) : ∀ (m : List (TileID × Geom ℝ)) (e : TileID × Geom ℝ),
    e ∈ cs.foldl (fun m p => mapSet m p.1 p.2) m → e ∈ m ∨ e ∈ cs := by
  induction cs with
  | nil => intro m e h; exact .inl h
  | cons c cs ih =>
    intro m e h
    rw [List.foldl_cons] at h
    rcases ih _ _ h with h | h
    · rcases mapSet_mem h with h | h
      · exact .inl h.1
      · exact .inr (by simp [h])
    · exact .inr (by simp [h])

theorem lastZ (cs : List (TileID × Geom ℝ)) (z : Nat) (hz : ∀ e ∈ cs, e.1.Z = z) : ∀ last : Nat, last = 0 ∨ last = z →
    (cs.foldl (fun l p => if p.1.Z ≠ 0 then p.1.Z else l) last = 0 ∨
      cs.foldl (fun l p => if p.1.Z ≠ 0 then p.1.Z else l) last = z) := by
  induction cs with
  | nil => intro last h; exact h
  | cons c cs ih =>
    intro last h
    rw [List.foldl_cons]
    apply ih (fun e he => hz e (by simp [he]))
    split
    · right; exact hz c (by simp)
    · exact h

theorem levelStep_ok (keep : Bool) (t0 : TileID) (g0 : Geom ℝ) (cz hi : Nat) (hcz : cz + 1 ≤ hi) (hhi : hi ≤ 60) :
    ∀ (es m : List (TileID × Geom ℝ)) (last : Nat) (m' : List (TileID × Geom ℝ)) (last' : Nat),
    (∀ e ∈ es, EntryOK t0 g0 hi e ∧ e.1.Z = cz) → (∀ e ∈ m, EntryOK t0 g0 hi e) → (last = 0 ∨ last = cz + 1) →
    levelStep keep es m last = some (m', last') →
    (∀ e ∈ m', EntryOK t0 g0 hi e) ∧ (last' = 0 ∨ last' = cz + 1) := by
  intro es
  induction es with
  | nil =>
    intro m last m' last' _ hm hl h
    simp only [levelStep, Option.some.injEq, Prod.mk.injEq] at h
    obtain ⟨rfl, rfl⟩ := h; exact ⟨hm, hl⟩
  | cons e es ih =>
    intro m last m' last' hes hm hl h
    obtain ⟨k, g⟩ := e
    simp only [levelStep, Option.bind_eq_bind, Option.bind_eq_some_iff] at h
    obtain ⟨cs, hcs, h⟩ := h
    obtain ⟨⟨hg, _, _⟩, hZ⟩ := hes (k, g) (by simp)
    simp only at hg hZ
    have hov := inGrid_noOverflow hg (by omega)
    have hbox := childEntries_in_box k hov g cs hcs
    have hcsOK : ∀ e ∈ cs, EntryOK t0 g0 hi e ∧ e.1.Z = cz + 1 := by
      intro e he
      obtain ⟨h1, h2⟩ := hbox e he
      obtain ⟨h3, h4⟩ := child_inGrid hg (by omega) h1
      exact ⟨⟨h3, by omega, .inr h2⟩, by omega⟩
    refine ih _ _ m' last' (fun e he => hes e (by simp [he])) ?_ (lastZ cs (cz + 1) (fun e he => (hcsOK e he).2) last hl) h
    intro e he
    have : e ∈ cs.foldl (fun m p => mapSet m p.1 p.2) m := by
      split at he
      · exact he
      · exact List.mem_of_mem_filter he
    rcases foldl_mapSet_mem cs m e this with h | h
    · exact hm e h
    · exact (hcsOK e h).1

theorem i64_small {n : Nat} (h : n < 9223372036854775808) : i64 n = n := by
  apply Int.bmod_eq_of_le <;> omega

/-- **C60.** Every geometry `ClipFeature` returns for a tile lies inside that tile's box (exact arithmetic), for every
iteration order of the map, with or without parents, the start entry (the unclipped feature under its first tile) aside. -/
theorem C60_result_in_tile (order : List (TileID × Geom ℝ) → List (TileID × Geom ℝ)) (horder : ∀ m, (order m).Perm m)
    (fuel : Nat) (g : Geom ℝ) (bb : Box ℝ) (endzoom : Nat) (keep : Bool) (hend : endzoom ≤ 60)
    (hgrid : (getFirstZoom bb).2.InGrid) (hz : (getFirstZoom bb).1 = (getFirstZoom bb).2.Z)
    (hfirst : (getFirstZoom bb).1 < endzoom) (m : List (TileID × Geom ℝ))
    (h : clipFeature order fuel g bb endzoom keep = some (some m)) :
    ∀ e ∈ m, e = ((getFirstZoom bb).2, g) ∨ ∀ q ∈ e.2.pts, InBox (tileBox e.1) q := by
  unfold clipFeature at h
  simp only [if_neg (not_le.2 hfirst)] at h
  generalize (getFirstZoom bb).2 = t0 at *
  generalize (getFirstZoom bb).1 = z0 at *
  suffices H : ∀ (fuel : Nat) (cz : Nat) (m0 : List (TileID × Geom ℝ)), (∀ e ∈ m0, EntryOK t0 g endzoom e) →
      clipLevels keep order endzoom fuel cz m0 = some (some m) → ∀ e ∈ m, EntryOK t0 g endzoom e by
    subst hz
    intro e he
    have := H fuel t0.Z [(t0, g)] (by
      intro e he; simp only [List.mem_singleton] at he; subst he
      exact ⟨hgrid, by simp only; omega, .inl rfl⟩) h e he
    exact this.2.2
  intro fuel
  induction fuel with
  | zero =>
    intro cz m0 h0 h
    unfold clipLevels at h
    split at h
    · simp at h
    · simp at h; subst h; exact h0
  | succ fuel ih =>
    intro cz m0 h0 h
    unfold clipLevels at h
    split at h
    · rename_i hlt
      simp only at h
      split at h
      · simp at h
      · rename_i m' last hstep
        have hes : ∀ e ∈ (order m0).filter (fun p => i64 p.1.Z = (cz : Int)), EntryOK t0 g endzoom e ∧ e.1.Z = cz := by
          intro e he
          rw [List.mem_filter] at he
          have hok := h0 e ((horder m0).mem_iff.1 he.1)
          refine ⟨hok, ?_⟩
          have hz : e.1.Z < 9223372036854775808 := by have := hok.2.1; omega
          have := he.2
          rw [i64_small hz] at this
          simpa using this
        obtain ⟨h1, h2⟩ := levelStep_ok keep t0 g cz endzoom (by omega) hend _ m0 0 m' last hes h0 (.inl rfl) hstep
        have hcast : i64 (last : Int) = (last : Int) := i64_small (by omega)
        rw [hcast] at h
        exact ih last m' h1 h
    · simp at h; subst h; exact h0

/-! ### C61: the start tile -/

theorem dedup_le_one {α : Type} [DecidableEq α] (l : List α) (h : ¬ l.dedup.length > 1) : ∀ a ∈ l, ∀ b ∈ l, a = b := by
  intro a ha b hb
  rw [← List.mem_dedup] at ha hb
  match hl : l.dedup, h with
  | [], _ => rw [hl] at ha; simp at ha
  | [x], _ => rw [hl] at ha hb; simp at ha hb; rw [ha, hb]
  | x :: y :: r, h => simp at h

theorem dedup_gt_one {α : Type} [DecidableEq α] (l : List α) (h : l.dedup.length > 1) : ∃ a ∈ l, ∃ b ∈ l, a ≠ b := by
  match hl : l.dedup, h with
  | [], h => simp at h
  | [x], h => simp at h
  | x :: y :: r, _ =>
    have hn := List.nodup_dedup l
    rw [hl] at hn
    refine ⟨x, List.mem_dedup.1 (by rw [hl]; simp), y, List.mem_dedup.1 (by rw [hl]; simp), ?_⟩
    rintro rfl; simp at hn

/-- The tiles of the four corners of a box at a zoom. -/
noncomputable def cornerTiles (b : Box ℝ) (z : Int) : List TileID :=
  [tile b.E b.N z, tile b.E b.S z, tile b.W b.N z, tile b.W b.S z]

/-- **C61.** `GetFirstZoom` finds the deepest zoom at which all four corners of the box lie in one tile, and that tile — unless
they still share one at zoom 29, when it answers with the fixed tile 0/0/30. -/
theorem C61_first_zoom (b : Box ℝ) :
    (∃ z : Nat, z < 30 ∧ getFirstZoom b = ((z : Int) - 1, tile b.E b.N ((z : Int) - 1)) ∧
      (∃ s ∈ cornerTiles b z, ∃ t ∈ cornerTiles b z, s ≠ t) ∧
      ∀ y : Nat, y < z → ∀ s ∈ cornerTiles b y, s = tile b.E b.N y) ∨
    (getFirstZoom b = (30, ⟨0, 0, 30⟩) ∧ ∀ y : Nat, y < 30 → ∀ s ∈ cornerTiles b y, s = tile b.E b.N y) := by
  unfold getFirstZoom
  suffices H : ∀ (n i : Nat), i + n = 30 → (∀ y : Nat, y < i → ∀ s ∈ cornerTiles b y, s = tile b.E b.N y) →
      (∃ z : Nat, z < 30 ∧ firstZoomLoop b i n = ((z : Int) - 1, tile b.E b.N ((z : Int) - 1)) ∧
        (∃ s ∈ cornerTiles b z, ∃ t ∈ cornerTiles b z, s ≠ t) ∧
        ∀ y : Nat, y < z → ∀ s ∈ cornerTiles b y, s = tile b.E b.N y) ∨
      (firstZoomLoop b i n = (30, ⟨0, 0, 30⟩) ∧ ∀ y : Nat, y < 30 → ∀ s ∈ cornerTiles b y, s = tile b.E b.N y) by
    exact H 30 0 rfl (by intro y hy; omega)
  intro n
  induction n with
  | zero => intro i hi h; right; exact ⟨rfl, fun y hy => h y (by omega)⟩
  | succ n ih =>
    intro i hi h
    rw [firstZoomLoop]
    split
    · rename_i hc
      left
      exact ⟨i, by omega, rfl, dedup_gt_one _ hc, h⟩
    · rename_i hc
      refine ih (i + 1) (by omega) ?_
      intro y hy s hs
      by_cases hyi : y < i
      · exact h y hyi s hs
      · obtain rfl : y = i := by omega
        exact dedup_le_one _ hc s hs _ (by simp)

theorem parent_zero (z : Nat) (hz : z < 60) : parent ⟨0, 0, z + 1⟩ = ⟨0, 0, z⟩ := by
  apply C06_parent_of_child ⟨0, 0, z⟩
  · unfold NoOverflow; refine ⟨by norm_num, by norm_num, by norm_num, by norm_num, ?_⟩; simp only; omega
  · rw [children_eq]
    · simp
    · unfold NoOverflow; refine ⟨by norm_num, by norm_num, by norm_num, by norm_num, ?_⟩; simp only; omega

theorem upTo_stop {e : Int} {fuel : Nat} {t : TileID} (h : i64 t.Z = e) : upTo e fuel t = some t := by
  cases fuel <;> simp only [upTo, h, if_true]

theorem upTo_go {e : Int} {fuel : Nat} {t : TileID} (h : i64 t.Z ≠ e) : upTo e (fuel + 1) t = upTo e fuel (parent t) := by
  simp only [upTo, h, if_false]

theorem upTo_zero (e : Nat) : ∀ (d fuel : Nat), e + d ≤ 60 → d ≤ fuel → upTo e fuel ⟨0, 0, e + d⟩ = some ⟨0, 0, e⟩ := by
  intro d
  induction d with
  | zero =>
    intro fuel h _
    rw [Nat.add_zero]
    have hi : i64 (e : Int) = e := i64_small (by omega)
    exact upTo_stop (t := ⟨0, 0, e⟩) hi
  | succ d ih =>
    intro fuel h hf
    obtain ⟨f, rfl⟩ : ∃ f, fuel = f + 1 := ⟨fuel - 1, by omega⟩
    have hne : i64 ((e + d + 1 : Nat) : Int) ≠ (e : Int) := by rw [i64_small (by omega)]; omega
    rw [show e + (d + 1) = (e + d) + 1 by omega, upTo_go (t := ⟨0, 0, e + d + 1⟩) hne, parent_zero (e + d) (by omega)]
    exact ih f (by omega) (by omega)

/-- **C61 (false part).** A line whose bounding box is a single point (or so small that its corners share a tile at zoom 29) is
stored under tile 0/0/endzoom, wherever it lies, and again under 0/0/30. -/
theorem C61_tiny_feature_wrong_tile (order : List (TileID × Geom ℝ) → List (TileID × Geom ℝ)) (fuel : Nat) (hf : 30 ≤ fuel)
    (g : Geom ℝ) (hg : makefeature g = some g) (lng lat : ℝ) (endzoom : Nat) (hend : endzoom < 30) (keep : Bool) :
    clipFeature order fuel g ⟨lng, lat, lng, lat⟩ endzoom keep = some (some [(⟨0, 0, 30⟩, g), (⟨0, 0, endzoom⟩, g)]) := by
  have hfz : getFirstZoom ⟨lng, lat, lng, lat⟩ = (30, ⟨0, 0, 30⟩) := by
    rcases C61_first_zoom ⟨lng, lat, lng, lat⟩ with ⟨z, _, _, ⟨s, hs, t, ht, hst⟩, _⟩ | ⟨h, _⟩
    · simp [cornerTiles] at hs ht
      exact absurd (hs.trans ht.symm) hst
    · exact h
  unfold clipFeature
  rw [hfz]
  simp only
  rw [if_pos (by omega)]
  have := upTo_zero endzoom (30 - endzoom) fuel (by omega) (by omega)
  rw [show endzoom + (30 - endzoom) = 30 by omega] at this
  rw [this, hg]
  have hne : (⟨0, 0, 30⟩ : TileID) ≠ ⟨0, 0, endzoom⟩ := by
    intro h; have := congrArg TileID.Z h; simp at this; omega
  simp [mapSet, hne]

example : makefeature (.lineString [((10 : ℝ), (-10 : ℝ)), (10, -10)]) = some (.lineString [(10, -10), (10, -10)]) := rfl

theorem world_tile (lng lat : ℝ) (h1 : -180 ≤ lng) (h2 : lng < 180) (h3 : -45 ≤ lat) (h4 : lat ≤ 45) :
    tile lng lat 0 = ⟨0, 0, 0⟩ := by
  have hbox : (bounds ⟨0, 0, 0⟩).HasPoint lng lat := by
    have hpi := Real.pi_pos
    have hat' : Real.pi / 4 < Real.arctan (Real.sinh Real.pi) := by
      rw [← Real.arctan_one]; apply Real.arctan_strictMono
      have := Real.self_le_sinh_iff.2 hpi.le
      linarith [Real.two_le_pi]
    have h45 : 45 < 180 / Real.pi * Real.arctan (Real.sinh Real.pi) := by
      have : 180 / Real.pi * (Real.pi / 4) = 45 := by field_simp; norm_num
      calc (45 : ℝ) = 180 / Real.pi * (Real.pi / 4) := this.symm
        _ < _ := mul_lt_mul_of_pos_left hat' (by positivity)
    unfold bounds ul Extrema.HasPoint
    simp only [Int.cast_zero, pow_zero, zero_div, zero_mul, zero_add, Int.cast_one, mul_zero, sub_zero, mul_one]
    have e : Real.pi * (1 - 2 / 1) = -Real.pi := by ring
    rw [e, Real.sinh_neg, Real.arctan_neg]
    refine ⟨by linarith, by linarith, by linarith, by linarith⟩
  exact (C05_tile_iff_in_bounds lng lat 0 0 0 (by norm_num) (hasPoint_lat hbox).1 (hasPoint_lat hbox).2).2 hbox

/-- The hypotheses of `C60_result_in_tile` hold e.g. for a box around the centre of the world map: its first tile is the whole
world. -/
theorem C61_world_example : getFirstZoom ⟨-90, -45, 90, 45⟩ = (0, ⟨0, 0, 0⟩) := by
  have hne : tile (-90) 45 1 ≠ tile 90 45 1 := by
    intro h
    have := congrArg TileID.X h
    simp only [tile] at this
    norm_num at this
  rcases C61_first_zoom ⟨-90, -45, 90, 45⟩ with ⟨z, hz, he, ⟨s, hs, t, ht, hst⟩, hall⟩ | ⟨_, hall⟩
  · have hz1 : z ≤ 1 := by
      by_contra hgt
      exact hne (hall 1 (by omega) (tile (-90) 45 1) (by simp [cornerTiles]))
    have hz0 : z ≠ 0 := by
      rintro rfl
      have key : ∀ c ∈ cornerTiles ⟨-90, -45, 90, 45⟩ ((0 : Nat) : Int), c = ⟨0, 0, 0⟩ := by
        intro c hc
        simp only [cornerTiles, List.mem_cons, List.not_mem_nil, or_false] at hc
        rcases hc with rfl | rfl | rfl | rfl <;> apply world_tile <;> norm_num
      exact hst ((key s hs).trans (key t ht).symm)
    obtain rfl : z = 1 := by omega
    rw [he]
    have := world_tile 90 45 (by norm_num) (by norm_num) (by norm_num) (by norm_num)
    simp [this]
  · exact absurd (hall 1 (by omega) (tile (-90) 45 1) (by simp [cornerTiles])) hne

/-- **C39 (false part).** When a line lies in the western half of a tile, both eastern children still get an entry, a feature
without geometry: `IsEmpty` does not recognise it. -/
theorem C39_empty_features_for_missed_tiles {F : Type} [Zero F] [Add F] [Sub F] [Mul F] [Div F] [LinearOrder F] (p7 : F)
    (l : List (F × F)) (bds c0 c1 c2 c3 : Box F) (hl : l ≠ []) (h : ∀ q ∈ l, q.1 < c0.E) (hE : c0.E ≤ bds.E)
    (r : List (Option (Geom F))) (hr : clipDownTile p7 (.lineString l) bds c0 c1 c2 c3 = some r) :
    r[1]? = some (some .empty) ∧ r[2]? = some (some .empty) := by
  have hx : clip p7 (.lineString l) c0.E bds.E .x = some (.multiLineString []) := by
    simp only [clip, C38_outside_disappears l c0.E bds.E .x false hE hl (.inl h), Option.map_some, lineResult]
  unfold clipDownTile at hr
  simp only [isTileSquare, Bool.false_eq_true, if_false, hx, Option.bind_eq_bind, Option.bind_some,
    Option.bind_eq_some_iff, Option.pure_def, Option.some.injEq] at hr
  obtain ⟨l', _, ld, _, lu, _, rd, hrd, ru, hru, rfl⟩ := hr
  simp only [clip, Option.some.injEq] at hrd hru
  subst hrd hru
  simp [isEmpty]

example : clipDownTile (1 / 10000000 : ℚ) (.lineString [(1, 1), (1, 3)]) ⟨0, 0, 4, 4⟩ ⟨0, 2, 2, 4⟩ ⟨2, 2, 4, 4⟩ ⟨2, 0, 4, 2⟩
    ⟨0, 0, 2, 2⟩ = some [some (.lineString [(1, 2), (1, 3)]), some .empty, some .empty, some (.lineString [(1, 1), (1, 2)])] := by
  decide +kernel

end Verif.Clip
