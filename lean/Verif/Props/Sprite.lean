import Verif.Proof.Sprite
import Mathlib.Data.List.Nodup
import Mathlib.Data.List.Pairwise
import Mathlib.Tactic.Ring

/-! # C14, C15, C59: sprite packing and sheets -/
namespace Verif.Sprite
open Verif.Go

/-- C14: whenever `Fit` returns, it has placed exactly the given blocks in order, any two of them on disjoint
rectangles, each inside the packed area (the root's size) with non-negative coordinates. -/
theorem C14_fit_disjoint (blocks : List Block) (hn : ∀ b ∈ blocks, 0 ≤ b.w ∧ 0 ≤ b.h) (t : Tree)
    (placed : List (Block × Int × Int)) (h : fit blocks = some (t, placed)) :
    placed.map Prod.fst = blocks ∧
    (placed.map fun p => (⟨p.2.1, p.2.2, p.1.w, p.1.h⟩ : Rect)).Pairwise Rect.Disjoint ∧
    ∀ p ∈ placed, (⟨p.2.1, p.2.2, p.1.w, p.1.h⟩ : Rect).Within t.width t.height := by
  have key : ∀ w h', 0 ≤ w → 0 ≤ h' → fitLoop (.leaf 0 0 w h') blocks = some (t, placed) → _ := fun w h' a b =>
    fitLoop_spec blocks (.leaf 0 0 w h') [] (inv_init w h' a b) hn t placed
  have hres : placed.map Prod.fst = blocks ∧ Inv t ((placed.map rectOf).reverse ++ []) := by
    cases blocks with
    | nil => exact key 0 0 (le_refl _) (le_refl _) h
    | cons b bs => exact key b.w b.h (hn b (by simp)).1 (hn b (by simp)).2 h
  obtain ⟨h1, h2⟩ := hres
  rw [List.append_nil] at h2
  refine ⟨h1, ?_, ?_⟩
  · have := (List.pairwise_append.mp h2.dj).2.1
    rw [List.pairwise_reverse] at this
    exact this.imp (fun hab => Rect.disjoint_comm hab)
  · intro p hp
    apply h2.wi
    rw [List.mem_append, List.mem_reverse]
    exact Or.inr (List.mem_map_of_mem (f := rectOf) hp)

/-- three blocks are really packed side by side and below -/
example : ((fit [⟨"a", 4, 4⟩, ⟨"b", 3, 4⟩, ⟨"c", 5, 1⟩]).map fun r => r.2.map Prod.snd) =
    some [(0, 0), (4, 0), (0, 4)] := by decide

/-- C14: the only way `Fit` fails (a nil dereference) is a block wider and higher than everything so far. -/
example : fit [⟨"a", 1, 1⟩, ⟨"b", 2, 2⟩] = none := by decide

/-- Fit never fails on blocks sorted by decreasing area. -/
theorem fit_sorted (blocks : List Block) (hn : ∀ b ∈ blocks, 0 ≤ b.w ∧ 0 ≤ b.h)
    (hs : blocks.Pairwise (fun a b => b.w * b.h ≤ a.w * a.h)) : ∃ r, fit blocks = some r := by
  cases blocks with
  | nil => exact ⟨_, rfl⟩
  | cons b bs =>
    have hb := hn b (by simp)
    apply fitLoop_some (b :: bs) (.leaf 0 0 b.w b.h) [] (inv_init _ _ hb.1 hb.2) hn
    intro c hc
    rw [List.pairwise_cons] at hs
    rw [List.mem_cons] at hc
    rcases hc with rfl | hc
    · simp [Tree.width]
    · have := hs.1 c hc
      simp only [Tree.width, Tree.height]
      rintro ⟨h1, h2⟩
      nlinarith [hb.1, hb.2]

theorem collect_blocks (sc : Texture → Int × Int) (ratio : Int) : ∀ ts set,
    (collect sc ratio ts set).1 = ts.map (fun t => ⟨t.name, (sc t).1, (sc t).2⟩)
  | [], _ => rfl
  | t :: ts, set => by simp [collect, collect_blocks sc ratio ts]

theorem collect_set (sc : Texture → Int × Int) (ratio : Int) : ∀ ts set, (ts.map Texture.name).Nodup →
    (∀ t ∈ ts, (collect sc ratio ts set).2 t.name = some ⟨(sc t).1, (sc t).2, ratio, 0, 0, t⟩) ∧
    (∀ k, k ∉ ts.map Texture.name → (collect sc ratio ts set).2 k = set k)
  | [], _, _ => by simp [collect]
  | t :: ts, set, hd => by
    rw [List.map_cons, List.nodup_cons] at hd
    obtain ⟨i1, i2⟩ := collect_set sc ratio ts (set.put t.name ⟨(sc t).1, (sc t).2, ratio, 0, 0, t⟩) hd.2
    refine ⟨?_, ?_⟩
    · intro u hu
      rw [List.mem_cons] at hu
      simp only [collect]
      rcases hu with rfl | hu
      · rw [i2 _ hd.1]; simp [SpriteMap.put]
      · exact i1 u hu
    · intro k hk
      rw [List.map_cons, List.mem_cons, not_or] at hk
      simp only [collect]
      rw [i2 k hk.2]; simp [SpriteMap.put, hk.1]

/-- effect of the placement loop on the set -/
theorem lay_set (render : Bool) : ∀ (ps : List (Block × Int × Int)) (s : Sheet), (ps.map (fun p => p.1.key)).Nodup →
    (∀ p ∈ ps, (ps.foldl (layStep render) s).set p.1.key =
      (s.set p.1.key).map (fun ts => { ts with x := p.2.1, y := p.2.2 })) ∧
    (∀ k, k ∉ ps.map (fun p => p.1.key) → (ps.foldl (layStep render) s).set k = s.set k)
  | [], s, _ => by simp
  | (b, x, y) :: ps, s, hd => by
    rw [List.map_cons, List.nodup_cons] at hd
    obtain ⟨i1, i2⟩ := lay_set render ps (layStep render s (b, x, y)) hd.2
    have hset : ∀ k, (layStep render s (b, x, y)).set k =
        if k = b.key then (s.set k).map (fun ts => { ts with x := x, y := y }) else s.set k := by
      intro k
      unfold layStep
      simp only
      cases h : s.set b.key with
      | none =>
        simp only
        split <;> by_cases hk : k = b.key <;> simp [hk, h]
      | some ts =>
        simp only
        split <;> by_cases hk : k = b.key <;> simp [SpriteMap.put, hk, h]
    refine ⟨?_, ?_⟩
    · intro p hp
      rw [List.mem_cons] at hp
      rw [List.foldl_cons]
      rcases hp with rfl | hp
      · rw [i2 _ hd.1, hset]; simp
      · rw [i1 p hp, hset, if_neg]
        rintro e
        apply hd.1
        simp only
        rw [← e]
        exact List.mem_map_of_mem (f := fun p : Block × Int × Int => p.1.key) hp
    · intro k hk
      rw [List.map_cons, List.mem_cons, not_or] at hk
      rw [List.foldl_cons, i2 k hk.2, hset, if_neg hk.1]

/-- effect of the placement loop on the sheet size -/
theorem lay_size : ∀ (ps : List (Block × Int × Int)) (s : Sheet), 0 ≤ s.w → 0 ≤ s.h →
    (s.w ≤ (ps.foldl (layStep true) s).w ∧ s.h ≤ (ps.foldl (layStep true) s).h) ∧
    (∀ p ∈ ps, p.1.w + p.2.1 ≤ (ps.foldl (layStep true) s).w ∧ p.1.h + p.2.2 ≤ (ps.foldl (layStep true) s).h) ∧
    ((ps.foldl (layStep true) s).w = s.w ∨ ∃ p ∈ ps, (ps.foldl (layStep true) s).w = p.1.w + p.2.1) ∧
    ((ps.foldl (layStep true) s).h = s.h ∨ ∃ p ∈ ps, (ps.foldl (layStep true) s).h = p.1.h + p.2.2)
  | [], s, _, _ => by simp
  | (b, x, y) :: ps, s, hw, hh => by
    have e1 : (layStep true s (b, x, y)).w = if b.w + x > s.w then b.w + x else s.w := rfl
    have e2 : (layStep true s (b, x, y)).h = if b.h + y > s.h then b.h + y else s.h := rfl
    have g1 : s.w ≤ (layStep true s (b, x, y)).w := by rw [e1]; split <;> omega
    have g2 : s.h ≤ (layStep true s (b, x, y)).h := by rw [e2]; split <;> omega
    have f1 : b.w + x ≤ (layStep true s (b, x, y)).w := by rw [e1]; split <;> omega
    have f2 : b.h + y ≤ (layStep true s (b, x, y)).h := by rw [e2]; split <;> omega
    obtain ⟨⟨m1, m2⟩, i2, i3, i4⟩ := lay_size ps (layStep true s (b, x, y)) (by omega) (by omega)
    rw [List.foldl_cons]
    refine ⟨⟨by omega, by omega⟩, ?_, ?_, ?_⟩
    · intro p hp
      rw [List.mem_cons] at hp
      rcases hp with rfl | hp
      · simp only; omega
      · exact i2 p hp
    · rcases i3 with h | ⟨p, hp, h⟩
      · rw [h, e1]
        split
        · exact Or.inr ⟨_, List.mem_cons_self, rfl⟩
        · exact Or.inl rfl
      · exact Or.inr ⟨p, List.mem_cons_of_mem _ hp, h⟩
    · rcases i4 with h | ⟨p, hp, h⟩
      · rw [h, e2]
        split
        · exact Or.inr ⟨_, List.mem_cons_self, rfl⟩
        · exact Or.inl rfl
      · exact Or.inr ⟨p, List.mem_cons_of_mem _ hp, h⟩

/-- Spec of the blocks `GenerateSprite` hands to the sort: one per texture, with the scaled size. -/
def blocksOf (sc : Texture → Int × Int) (textures : List Texture) : List Block :=
  textures.map (fun t => ⟨t.name, (sc t).1, (sc t).2⟩)

/-- The rectangle a sprite occupies on the sheet. -/
def TexSprite.rect (s : TexSprite) : Rect := ⟨s.x, s.y, s.width, s.height⟩

/-- Everything `GenerateSprite` promises about its result. -/
structure GoodSheet (sc : Texture → Int × Int) (ratio : Int) (textures : List Texture) (set : SpriteMap) (W H : Int) :
    Prop where
  /-- the names in the result are exactly the texture names -/
  names : ∀ k, (set k).isSome ↔ k ∈ textures.map Texture.name
  /-- each texture's entry has its scaled size and its origin -/
  entry : ∀ t ∈ textures, ∃ x y, set t.name = some ⟨(sc t).1, (sc t).2, ratio, x, y, t⟩
  /-- two different sprites share no pixel -/
  disjoint : ∀ k k' s s', k ≠ k' → set k = some s → set k' = some s' → s.rect.Disjoint s'.rect
  /-- every sprite lies on the sheet -/
  within : ∀ k s, set k = some s → s.rect.Within W H
  /-- the sheet's width is the right edge of some sprite, or 1 if every right edge is 0 -/
  width : (∃ k s, set k = some s ∧ s.x + s.width = W ∧ 0 < W) ∨ (W = 1 ∧ ∀ k s, set k = some s → s.x + s.width = 0)
  /-- likewise the height -/
  height : (∃ k s, set k = some s ∧ s.y + s.height = H ∧ 0 < H) ∨ (H = 1 ∧ ∀ k s, set k = some s → s.y + s.height = 0)

/-- C15: for textures with distinct names whose scaled sizes are non-negative (and below 2^31, so that the area in the
sort comparison does not overflow), `GenerateSprite` succeeds whatever admissible permutation the unstable sort
produced, and the sheet is as promised. -/
theorem C15_generateSprite (sc : Texture → Int × Int) (ratio : Int) (textures : List Texture) (sorted : List Block)
    (hd : (textures.map Texture.name).Nodup)
    (hsz : ∀ t ∈ textures, 0 ≤ (sc t).1 ∧ (sc t).1 < 2147483648 ∧ 0 ≤ (sc t).2 ∧ (sc t).2 < 2147483648)
    (hsort : SortResult (blocksOf sc textures) sorted) :
    ∃ set W H, generateSprite sc ratio textures sorted true = some (set, some (W, H)) ∧
      GoodSheet sc ratio textures set W H ∧
      generateSprite sc ratio textures sorted false = some (set, none) := by
  obtain ⟨hperm, hpw⟩ := hsort
  have hmem : ∀ b ∈ sorted, ∃ t ∈ textures, b = ⟨t.name, (sc t).1, (sc t).2⟩ := by
    intro b hb
    rw [hperm.mem_iff, blocksOf, List.mem_map] at hb
    obtain ⟨t, ht, rfl⟩ := hb
    exact ⟨t, ht, rfl⟩
  have hbsz : ∀ b ∈ sorted, 0 ≤ b.w ∧ b.w < 2147483648 ∧ 0 ≤ b.h ∧ b.h < 2147483648 := by
    intro b hb
    obtain ⟨t, ht, rfl⟩ := hmem b hb
    exact hsz t ht
  have hi : ∀ b ∈ sorted, i64 (b.w * b.h) = b.w * b.h := by
    intro b hb
    obtain ⟨h1, h2, h3, h4⟩ := hbsz b hb
    unfold i64
    have : 0 ≤ b.w * b.h := mul_nonneg h1 h3
    have : b.w * b.h ≤ 2147483648 * 2147483648 := by nlinarith
    rw [Int.bmod_eq_of_le] <;> omega
  have harea : sorted.Pairwise (fun a b => b.w * b.h ≤ a.w * a.h) := by
    apply hpw.imp_of_mem
    intro a b ha hb h
    unfold less at h
    rw [hi a ha, hi b hb] at h
    omega
  obtain ⟨⟨t, placed⟩, hfit⟩ := fit_sorted sorted (fun b hb => ⟨(hbsz b hb).1, (hbsz b hb).2.2.1⟩) harea
  obtain ⟨hp1, hp2, hp3⟩ := C14_fit_disjoint sorted (fun b hb => ⟨(hbsz b hb).1, (hbsz b hb).2.2.1⟩) t placed hfit
  have hkeys : (placed.map (fun p => p.1.key)).Perm (textures.map Texture.name) := by
    have : placed.map (fun p => p.1.key) = sorted.map Block.key := by rw [← hp1, List.map_map]; rfl
    rw [this]
    have := hperm.map Block.key
    rw [blocksOf, List.map_map] at this
    exact this
  have hnd : (placed.map (fun p => p.1.key)).Nodup := hkeys.nodup_iff.mpr hd
  obtain ⟨c1, c2⟩ := collect_set sc ratio textures (fun _ => none) hd
  -- the entry of each placed block
  have entry : ∀ render, ∀ p ∈ placed, ∀ tx ∈ textures, p.1 = ⟨tx.name, (sc tx).1, (sc tx).2⟩ →
      (placed.foldl (layStep render) ⟨(collect sc ratio textures (fun _ => none)).2, 0, 0⟩).set p.1.key =
        some ⟨p.1.w, p.1.h, ratio, p.2.1, p.2.2, tx⟩ := by
    intro render p hp tx htx hpe
    obtain ⟨l1, _⟩ := lay_set render placed ⟨(collect sc ratio textures (fun _ => none)).2, 0, 0⟩ hnd
    rw [l1 p hp, hpe]
    simp only
    rw [c1 tx htx]; rfl
  have other : ∀ render, ∀ k, k ∉ textures.map Texture.name →
      (placed.foldl (layStep render) ⟨(collect sc ratio textures (fun _ => none)).2, 0, 0⟩).set k = none := by
    intro render k hk
    obtain ⟨_, l2⟩ := lay_set render placed ⟨(collect sc ratio textures (fun _ => none)).2, 0, 0⟩ hnd
    rw [l2 k (by rwa [hkeys.mem_iff])]
    exact c2 k hk
  have ptex : ∀ p ∈ placed, ∃ tx ∈ textures, p.1 = ⟨tx.name, (sc tx).1, (sc tx).2⟩ := by
    intro p hp
    apply hmem
    rw [← hp1]; exact List.mem_map_of_mem hp
  have texp : ∀ k ∈ textures.map Texture.name, ∃ p ∈ placed, p.1.key = k := by
    intro k hk
    rw [← hkeys.mem_iff, List.mem_map] at hk
    exact hk
  -- the final set as seen by name
  have final : ∀ k s, (placed.foldl (layStep true) ⟨(collect sc ratio textures (fun _ => none)).2, 0, 0⟩).set k = some s →
      ∃ p ∈ placed, p.1.key = k ∧ s.rect = ⟨p.2.1, p.2.2, p.1.w, p.1.h⟩ ∧ s.x = p.2.1 ∧ s.y = p.2.2 ∧ s.width = p.1.w ∧
        s.height = p.1.h := by
    intro k s hs
    by_cases hk : k ∈ textures.map Texture.name
    · obtain ⟨p, hp, rfl⟩ := texp k hk
      obtain ⟨tx, htx, e⟩ := ptex p hp
      rw [entry true p hp tx htx e] at hs
      cases hs
      exact ⟨p, hp, rfl, rfl, rfl, rfl, rfl, rfl⟩
    · rw [other true k hk] at hs; cases hs
  have back : ∀ p ∈ placed, ∃ s, (placed.foldl (layStep true) ⟨(collect sc ratio textures (fun _ => none)).2, 0, 0⟩).set p.1.key =
      some s ∧ s.x = p.2.1 ∧ s.y = p.2.2 ∧ s.width = p.1.w ∧ s.height = p.1.h := by
    intro p hp
    obtain ⟨tx, htx, e⟩ := ptex p hp
    exact ⟨_, entry true p hp tx htx e, rfl, rfl, rfl, rfl⟩
  have same : ∀ render, (placed.foldl (layStep render) ⟨(collect sc ratio textures (fun _ => none)).2, 0, 0⟩).set =
      (placed.foldl (layStep true) ⟨(collect sc ratio textures (fun _ => none)).2, 0, 0⟩).set := by
    intro render
    funext k
    by_cases hk : k ∈ textures.map Texture.name
    · obtain ⟨p, hp, rfl⟩ := texp k hk
      obtain ⟨tx, htx, e⟩ := ptex p hp
      rw [entry true p hp tx htx e, entry render p hp tx htx e]
    · rw [other true k hk, other render k hk]
  obtain ⟨⟨z1, z2⟩, hsize, hsw, hsh⟩ := lay_size placed ⟨(collect sc ratio textures (fun _ => none)).2, 0, 0⟩ (le_refl _) (le_refl _)
  have g1 : ∀ render, generateSprite sc ratio textures sorted render =
      (let s := placed.foldl (layStep render) ⟨(collect sc ratio textures (fun _ => none)).2, 0, 0⟩
       some (s.set, if render then some (if s.w = 0 then 1 else s.w, if s.h = 0 then 1 else s.h) else none)) := by
    intro render
    unfold generateSprite
    simp only [hfit]
  rw [g1 true, g1 false]
  simp only [same false]
  have other := other true
  have entry := entry true
  generalize placed.foldl (layStep true) ⟨(collect sc ratio textures (fun _ => none)).2, 0, 0⟩ = S at *
  refine ⟨S.set, (if S.w = 0 then 1 else S.w), (if S.h = 0 then 1 else S.h), rfl, ?_, rfl⟩
  · simp only at z1 z2 hsw hsh
    refine ⟨?_, ?_, ?_, ?_, ?_, ?_⟩
    · intro k
      constructor
      · intro h
        by_contra hk
        rw [other k hk] at h
        simp at h
      · intro hk
        obtain ⟨p, hp, rfl⟩ := texp k hk
        obtain ⟨s, hs, _⟩ := back p hp
        rw [hs]; rfl
    · intro tx htx
      obtain ⟨p, hp, hk⟩ := texp tx.name (List.mem_map_of_mem htx)
      obtain ⟨tx', htx', e⟩ := ptex p hp
      have hname : tx'.name = tx.name := by rw [← hk, e]
      have : tx' = tx := List.inj_on_of_nodup_map hd htx' htx hname
      subst this
      have h := entry p hp tx' htx' e
      rw [hk] at h
      rw [h, e]
      exact ⟨_, _, rfl⟩
    · intro k k' s s' hne hs hs'
      obtain ⟨p, hp, rfl, hr, _⟩ := final k s hs
      obtain ⟨p', hp', rfl, hr', _⟩ := final k' s' hs'
      rw [hr, hr']
      have hsym : ∀ a b : Block × Int × Int, a ∈ placed → b ∈ placed → a ≠ b →
          (⟨a.2.1, a.2.2, a.1.w, a.1.h⟩ : Rect).Disjoint ⟨b.2.1, b.2.2, b.1.w, b.1.h⟩ := by
        intro a b ha hb hab
        rw [List.pairwise_map] at hp2
        haveI : Std.Symm (fun a b : Block × Int × Int =>
          (⟨a.2.1, a.2.2, a.1.w, a.1.h⟩ : Rect).Disjoint ⟨b.2.1, b.2.2, b.1.w, b.1.h⟩) :=
          ⟨fun _ _ h => Rect.disjoint_comm h⟩
        exact hp2.forall ha hb hab
      apply hsym p p' hp hp'
      rintro rfl
      exact hne rfl
    · intro k s hs
      obtain ⟨p, hp, rfl, hr, _⟩ := final k s hs
      rw [hr]
      obtain ⟨a, b⟩ := hsize p hp
      obtain ⟨w1, w2, w3, w4, _, _⟩ := hp3 p hp
      refine ⟨w1, w2, w3, w4, ?_, ?_⟩
      · simp only; split <;> omega
      · simp only; split <;> omega
    · by_cases h0 : S.w = 0
      · right
        refine ⟨by simp [h0], ?_⟩
        intro k s hs
        obtain ⟨p, hp, rfl, hr, e1, e2, e3, e4⟩ := final k s hs
        obtain ⟨a, b⟩ := hsize p hp
        obtain ⟨w1, w2, w3, w4, _, _⟩ := hp3 p hp
        simp only at w1 w3
        omega
      · left
        rcases hsw with h | ⟨p, hp, h⟩
        · exact absurd h h0
        · obtain ⟨s, hs, e1, e2, e3, e4⟩ := back p hp
          refine ⟨_, s, hs, ?_, ?_⟩
          · rw [if_neg h0]; omega
          · rw [if_neg h0]; omega
    · by_cases h0 : S.h = 0
      · right
        refine ⟨by simp [h0], ?_⟩
        intro k s hs
        obtain ⟨p, hp, rfl, hr, e1, e2, e3, e4⟩ := final k s hs
        obtain ⟨a, b⟩ := hsize p hp
        obtain ⟨w1, w2, w3, w4, _, _⟩ := hp3 p hp
        simp only at w2 w4
        omega
      · left
        rcases hsh with h | ⟨p, hp, h⟩
        · exact absurd h h0
        · obtain ⟨s, hs, e1, e2, e3, e4⟩ := back p hp
          refine ⟨_, s, hs, ?_, ?_⟩
          · rw [if_neg h0]; omega
          · rw [if_neg h0]; omega

/-- a concrete sheet meeting the hypotheses -/
example : SortResult (blocksOf (scaleTo 2) [⟨"a", 3, 2, 2⟩, ⟨"b", 2, 4, 1⟩]) [⟨"b", 4, 8⟩, ⟨"a", 3, 2⟩] ∧
    ((generateSprite (scaleTo 2) 2 [⟨"a", 3, 2, 2⟩, ⟨"b", 2, 4, 1⟩] [⟨"b", 4, 8⟩, ⟨"a", 3, 2⟩] true).map Prod.snd) =
      some (some (7, 8)) := by
  refine ⟨⟨?_, ?_⟩, ?_⟩
  · decide
  · simp [less]; decide
  · decide

/-- The blocks handed to the sort are the ones of `blocksOf`. -/
theorem C15_blocks_collected (sc : Texture → Int × Int) (ratio : Int) (textures : List Texture) (set : SpriteMap) :
    (collect sc ratio textures set).1 = blocksOf sc textures := collect_blocks sc ratio textures set

/-- C15: with exact scaling, non-negative sizes and positive pixel ratios the scaled sizes are non-negative, and a
texture that already has the requested ratio keeps its size. -/
theorem C15_scaleTo_nonneg (t : Texture) (ratio : Int) (hw : 0 ≤ t.width) (hh : 0 ≤ t.height) (hr : 0 ≤ ratio)
    (hp : 0 < t.pixelRatio) : 0 ≤ (scaleTo ratio t).1 ∧ 0 ≤ (scaleTo ratio t).2 ∧
      (t.pixelRatio = ratio → scaleTo ratio t = (t.width, t.height)) := by
  unfold scaleTo scaleDim
  refine ⟨Int.tdiv_nonneg (mul_nonneg hw hr) hp.le, Int.tdiv_nonneg (mul_nonneg hh hr) hp.le, ?_⟩
  intro h
  rw [h]
  have : ratio ≠ 0 := by omega
  rw [Int.mul_tdiv_cancel _ this, Int.mul_tdiv_cancel _ this]

example : scaleTo 2 ⟨"a", 3, 5, 1⟩ = (6, 10) ∧ scaleTo 1 ⟨"a", 3, 5, 2⟩ = (1, 2) := by decide

/-- C15, the hypothesis on names is needed: with two textures of the same name the surviving entry has the size of
one and the place of the other, and sticks out of the sheet. -/
theorem C15_duplicate_names_break :
    let ts : List Texture := [⟨"a", 1, 1, 1⟩, ⟨"a", 2, 2, 1⟩]
    let sorted : List Block := [⟨"a", 2, 2⟩, ⟨"a", 1, 1⟩]
    SortResult (blocksOf (scaleTo 1) ts) sorted ∧
    ∃ set s, generateSprite (scaleTo 1) 1 ts sorted true = some (set, some (3, 2)) ∧ set "a" = some s ∧
      ¬ s.rect.Within 3 2 := by
  refine ⟨⟨by decide, by simp [less]; decide⟩, _, ⟨2, 2, 1, 2, 0, ⟨"a", 2, 2, 1⟩⟩, rfl, by decide, ?_⟩
  unfold Rect.Within TexSprite.rect
  simp

/-- pixel of the sheet after the drawing loop -/
theorem drawAll_px (set : SpriteMap) (img : String → Image) (x y : Int) (k : String) (s : TexSprite)
    (hs : set k = some s) :
    ∀ (order : List String) (acc : Image), order.Nodup →
      (∀ k' s', k' ≠ k → set k' = some s' → ¬ (0 ≤ x - s'.x ∧ x - s'.x < (img k').w ∧ 0 ≤ y - s'.y ∧ y - s'.y < (img k').h)) →
      (0 ≤ x - s.x ∧ x - s.x < (img k).w ∧ 0 ≤ y - s.y ∧ y - s.y < (img k).h) →
      (0 ≤ x ∧ x < acc.w ∧ 0 ≤ y ∧ y < acc.h) →
      (order.foldl (drawStep set img) acc).px x y = if k ∈ order then (img k).px (x - s.x) (y - s.y) else acc.px x y
  | [], acc, _, _, _, _ => by simp
  | k' :: order, acc, hnd, hother, hin, hacc => by
    rw [List.nodup_cons] at hnd
    rw [List.foldl_cons]
    by_cases hk : k' = k
    · subst hk
      have e : drawStep set img acc k' = drawAt acc (img k') s.x s.y := by simp only [drawStep, hs]
      rw [e, drawAll_px set img x y k' s hs order (drawAt acc (img k') s.x s.y) hnd.2 hother hin hacc]
      rw [if_neg hnd.1, if_pos (by simp)]
      simp only [drawAt]
      rw [if_pos ⟨hacc.1, hacc.2.1, hacc.2.2.1, hacc.2.2.2, hin⟩]
    · have hk2 : k ≠ k' := fun h => hk h.symm
      cases hs' : set k' with
      | none =>
        have e : drawStep set img acc k' = acc := by simp only [drawStep, hs']
        rw [e, drawAll_px set img x y k s hs order acc hnd.2 hother hin hacc]
        simp [hk2]
      | some s' =>
        have e : drawStep set img acc k' = drawAt acc (img k') s'.x s'.y := by simp only [drawStep, hs']
        rw [e, drawAll_px set img x y k s hs order (drawAt acc (img k') s'.x s'.y) hnd.2 hother hin hacc]
        simp only [List.mem_cons, hk2, false_or]
        split
        · rfl
        · simp only [drawAt]
          rw [if_neg]
          rintro ⟨_, _, _, _, h⟩
          exact hother k' s' hk hs' h

/-- C59: on a good sheet, each sprite's pixels appear unchanged at its place, in whatever order the map is iterated
(each image having the size of its sprite). -/
theorem C59_sheet_pixels {sc : Texture → Int × Int} {ratio : Int} {textures : List Texture} {set : SpriteMap} {W H : Int}
    (hg : GoodSheet sc ratio textures set W H) (img : String → Image)
    (himg : ∀ k s, set k = some s → (img k).w = s.width ∧ (img k).h = s.height)
    (order : List String) (hnd : order.Nodup) (hall : ∀ k, (set k).isSome → k ∈ order)
    (k : String) (s : TexSprite) (hs : set k = some s) (i j : Int)
    (hi : 0 ≤ i ∧ i < s.width) (hj : 0 ≤ j ∧ j < s.height) :
    (drawAll set img order W H).px (s.x + i) (s.y + j) = (img k).px i j := by
  obtain ⟨w1, w2, w3, w4, w5, w6⟩ := hg.within k s hs
  simp only [TexSprite.rect] at *
  obtain ⟨e1, e2⟩ := himg k s hs
  unfold drawAll
  rw [drawAll_px set img (s.x + i) (s.y + j) k s hs order ⟨W, H, fun _ _ => 0⟩ hnd]
  · rw [if_pos (hall k (by rw [hs]; rfl))]
    congr 1 <;> omega
  · intro k' s' hne hs' hh
    obtain ⟨f1, f2⟩ := himg k' s' hs'
    apply hg.disjoint k' k s' s hne hs' hs (s.x + i) (s.y + j)
    unfold Rect.Has TexSprite.rect
    simp only
    omega
  · omega
  · simp only; omega

example : (drawAt ⟨3, 2, fun _ _ => 0⟩ ⟨1, 1, fun _ _ => 7⟩ 2 1).px 2 1 = 7 := by decide

end Verif.Sprite
