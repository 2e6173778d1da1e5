import Verif.Props.TileCover

/-!
# C09: completeness for segments that go two tiles or more in both directions
-/
namespace Verif.Cover
open Verif.Tid

theorem along_x_between {a b : Pt} {s s' t : ℝ} (h1 : s ≤ t) (h2 : t ≤ s') :
    ((along a b s).1 ≤ (along a b t).1 ∧ (along a b t).1 ≤ (along a b s').1) ∨
    ((along a b s').1 ≤ (along a b t).1 ∧ (along a b t).1 ≤ (along a b s).1) := by
  unfold along
  simp only
  rcases le_total a.1 b.1 with h | h
  · left; constructor <;> nlinarith
  · right; constructor <;> nlinarith

theorem along_y_between {a b : Pt} {s s' t : ℝ} (h1 : s ≤ t) (h2 : t ≤ s') :
    ((along a b s).2 ≤ (along a b t).2 ∧ (along a b t).2 ≤ (along a b s').2) ∨
    ((along a b s').2 ≤ (along a b t).2 ∧ (along a b t).2 ≤ (along a b s).2) := by
  unfold along
  simp only
  rcases le_total a.2 b.2 with h | h
  · left; constructor <;> nlinarith
  · right; constructor <;> nlinarith

theorem col_convex {a b : Pt} {s s' t : ℝ} (zoom : Nat) (h1 : s ≤ t) (h2 : t ≤ s')
    (he : (tile (along a b s).1 (along a b s).2 zoom).X = (tile (along a b s').1 (along a b s').2 zoom).X) :
    (tile (along a b t).1 (along a b t).2 zoom).X = (tile (along a b s').1 (along a b s').2 zoom).X := by
  rcases along_x_between (a := a) (b := b) h1 h2 with ⟨e1, e2⟩ | ⟨e1, e2⟩
  · have := tile_col_mono e1 (along a b s).2 (along a b t).2 zoom
    have := tile_col_mono e2 (along a b t).2 (along a b s').2 zoom
    omega
  · have := tile_col_mono e1 (along a b s').2 (along a b t).2 zoom
    have := tile_col_mono e2 (along a b t).2 (along a b s).2 zoom
    omega

theorem along_lat {a b : Pt} (ha : -90 < a.2 ∧ a.2 < 90) (hb : -90 < b.2 ∧ b.2 < 90) {s : ℝ} (h0 : 0 ≤ s) (h1 : s ≤ 1) :
    -90 < (along a b s).2 ∧ (along a b s).2 < 90 := by
  rcases along_y_between (a := a) (b := b) h0 h1 with ⟨e1, e2⟩ | ⟨e1, e2⟩ <;> simp only [along, zero_mul, one_mul, add_zero] at e1 e2 ⊢ <;>
    constructor <;> linarith

theorem row_convex {a b : Pt} (ha : -90 < a.2 ∧ a.2 < 90) (hb : -90 < b.2 ∧ b.2 < 90) {s s' t : ℝ} (zoom : Nat) (h0 : 0 ≤ s) (h1 : s ≤ t)
    (h2 : t ≤ s') (h3 : s' ≤ 1)
    (he : (tile (along a b s).1 (along a b s).2 zoom).Y = (tile (along a b s').1 (along a b s').2 zoom).Y) :
    (tile (along a b t).1 (along a b t).2 zoom).Y = (tile (along a b s').1 (along a b s').2 zoom).Y := by
  have l1 := along_lat ha hb h0 (by linarith : s ≤ 1)
  have l2 := along_lat ha hb (by linarith : 0 ≤ s') h3
  have l3 := along_lat ha hb (by linarith : 0 ≤ t) (by linarith : t ≤ 1)
  rcases along_y_between (a := a) (b := b) h1 h2 with ⟨e1, e2⟩ | ⟨e1, e2⟩
  · have := tile_row_mono l1.1 e1 l3.2 (along a b s).1 (along a b t).1 zoom
    have := tile_row_mono l3.1 e2 l2.2 (along a b t).1 (along a b s').1 zoom
    omega
  · have := tile_row_mono l2.1 e1 l3.2 (along a b s').1 (along a b t).1 zoom
    have := tile_row_mono l3.1 e2 l1.2 (along a b t).1 (along a b s).1 zoom
    omega

theorem eps_pos : 0 < eps := by unfold eps; norm_num

/-- A point of the segment just inside the column of the stretch from `s1` to `s2`, sampled by `BetweenTiles`. -/
theorem col_sample (a b : Pt) (zoom : Nat) (hx : 2 ≤ |(tile a.1 a.2 zoom).X - (tile b.1 b.2 zoom).X|) (s1 s2 : ℝ) (h0 : 0 ≤ s1)
    (h1 : s1 ≤ s2) (h2 : s2 ≤ 1) (c : Int) (hc1 : (tile (along a b s1).1 (along a b s1).2 zoom).X = c)
    (hc2 : (tile (along a b s2).1 (along a b s2).2 zoom).X = c) (hca : c ≠ (tile a.1 a.2 zoom).X)
    (he : eps < |(along a b s2).1 - (along a b s1).1|) :
    ∃ s, 0 ≤ s ∧ s ≤ s2 ∧ (tile (along a b s).1 (along a b s).2 zoom).X = c ∧
      tile (along a b s).1 (along a b s).2 zoom ∈ betweenTiles a b zoom := by
  have hep := eps_pos
  have q0 : (along a b 0) = a := by simp [along]
  have q1 : (along a b 1) = b := by simp [along]
  have w1 : lonOf c zoom ≤ (along a b s1).1 := by rw [← col_le_iff c _ (along a b s1).2]; omega
  have w2 : lonOf c zoom ≤ (along a b s2).1 := by rw [← col_le_iff c _ (along a b s2).2]; omega
  have w3 : (along a b s1).1 < lonOf (c + 1) zoom := by rw [← not_le, ← col_le_iff (c + 1) _ (along a b s1).2]; omega
  have w4 : (along a b s2).1 < lonOf (c + 1) zoom := by rw [← not_le, ← col_le_iff (c + 1) _ (along a b s2).2]; omega
  have key : ∀ u : ℝ, b.1 - a.1 ≠ 0 → along a b ((u - a.1) / (b.1 - a.1)) = (u, a.2 + (u - a.1) * ((b.2 - a.2) / (b.1 - a.1))) := by
    intro u hd
    unfold along
    ext
    · simp only; field_simp; ring
    · simp only; ring
  have hs2x : (along a b s2).1 = a.1 + s2 * (b.1 - a.1) := rfl
  have hs1x : (along a b s1).1 = a.1 + s1 * (b.1 - a.1) := rfl
  rcases lt_trichotomy a.1 b.1 with hab | hab | hab
  · have hdx : 0 < b.1 - a.1 := by linarith
    have m1 : (tile a.1 a.2 zoom).X ≤ c := by
      rw [← hc1]; exact tile_col_mono (by rw [hs1x]; nlinarith) _ _ _
    have m2 : c ≤ (tile b.1 b.2 zoom).X := by
      rw [← hc2]; exact tile_col_mono (by rw [hs2x]; nlinarith) _ _ _
    have hal : a.1 < lonOf c zoom := by rw [← not_le, ← col_le_iff c a.1 a.2]; omega
    have hext : (along a b s1).1 + eps < (along a b s2).1 := by
      rw [abs_of_nonneg (by rw [hs1x, hs2x]; nlinarith)] at he; linarith
    rw [abs_of_nonpos (by omega)] at hx
    have hk := key (lonOf c zoom + eps) hdx.ne'
    refine ⟨(lonOf c zoom + eps - a.1) / (b.1 - a.1), div_nonneg (by linarith) hdx.le, ?_, ?_, ?_⟩
    · rw [div_le_iff₀ hdx]; rw [hs2x] at hext; linarith
    · rw [hk]
      apply le_antisymm
      · have : ¬ (c + 1 ≤ (tile (lonOf c zoom + eps) (a.2 + (lonOf c zoom + eps - a.1) * ((b.2 - a.2) / (b.1 - a.1))) zoom).X) := by
          rw [col_le_iff]; linarith
        simp only; omega
      · rw [col_le_iff]; simp only; linarith
    · rw [hk, mem_between]
      right; right; left
      by_cases hcb : c = (tile b.1 b.2 zoom).X
      · exact ⟨c - 1, by omega, c, by omega, _, Or.inr rfl, rfl⟩
      · exact ⟨c, by omega, c, by omega, _, Or.inr rfl, rfl⟩
  · exfalso
    rw [hs1x, hs2x, hab] at he
    simp at he
    linarith
  · have hdx : b.1 - a.1 < 0 := by linarith
    have m1 : c ≤ (tile a.1 a.2 zoom).X := by
      rw [← hc1]; exact tile_col_mono (by rw [hs1x]; nlinarith) _ _ _
    have m2 : (tile b.1 b.2 zoom).X ≤ c := by
      rw [← hc2]; exact tile_col_mono (by rw [hs2x]; nlinarith) _ _ _
    have hal : lonOf (c + 1) zoom ≤ a.1 := by rw [← col_le_iff (c + 1) a.1 a.2]; omega
    have hext : (along a b s2).1 < (along a b s1).1 - eps := by
      rw [abs_of_nonpos (by rw [hs1x, hs2x]; nlinarith)] at he; linarith
    rw [abs_of_nonneg (by omega)] at hx
    have hk := key (lonOf (c + 1) zoom - eps) hdx.ne
    refine ⟨(lonOf (c + 1) zoom - eps - a.1) / (b.1 - a.1), div_nonneg_of_nonpos (by linarith) hdx.le, ?_, ?_, ?_⟩
    · rw [div_le_iff_of_neg hdx]; rw [hs2x] at hext; linarith
    · rw [hk]
      apply le_antisymm
      · have : ¬ (c + 1 ≤ (tile (lonOf (c + 1) zoom - eps) (a.2 + (lonOf (c + 1) zoom - eps - a.1) * ((b.2 - a.2) / (b.1 - a.1))) zoom).X) := by
          rw [col_le_iff]; linarith
        simp only; omega
      · rw [col_le_iff]; simp only; linarith
    · rw [hk, mem_between]
      right; right; left
      by_cases hcb : c = (tile b.1 b.2 zoom).X
      · exact ⟨c + 1, by omega, c + 1, by omega, _, Or.inl rfl, rfl⟩
      · exact ⟨c, by omega, c + 1, by omega, _, Or.inl rfl, rfl⟩

/-- The same for rows. -/
theorem row_sample (a b : Pt) (zoom : Nat) (ha : -90 < a.2 ∧ a.2 < 90) (hb : -90 < b.2 ∧ b.2 < 90)
    (hy : 2 ≤ |(tile a.1 a.2 zoom).Y - (tile b.1 b.2 zoom).Y|) (s1 s2 : ℝ) (h0 : 0 ≤ s1)
    (h1 : s1 ≤ s2) (h2 : s2 ≤ 1) (c : Int) (hc1 : (tile (along a b s1).1 (along a b s1).2 zoom).Y = c)
    (hc2 : (tile (along a b s2).1 (along a b s2).2 zoom).Y = c) (hca : c ≠ (tile a.1 a.2 zoom).Y)
    (he : eps < |(along a b s2).2 - (along a b s1).2|) :
    ∃ s, 0 ≤ s ∧ s ≤ s2 ∧ (tile (along a b s).1 (along a b s).2 zoom).Y = c ∧
      tile (along a b s).1 (along a b s).2 zoom ∈ betweenTiles a b zoom := by
  have hep := eps_pos
  have l1 := along_lat ha hb h0 (by linarith : s1 ≤ 1)
  have l2 := along_lat ha hb (by linarith : 0 ≤ s2) h2
  have w1 : (along a b s1).2 ≤ latOf c zoom := by rw [← row_le_iff c (along a b s1).1 _ zoom l1.1 l1.2]; omega
  have w2 : (along a b s2).2 ≤ latOf c zoom := by rw [← row_le_iff c (along a b s2).1 _ zoom l2.1 l2.2]; omega
  have w3 : latOf (c + 1) zoom < (along a b s1).2 := by rw [← not_le, ← row_le_iff (c + 1) (along a b s1).1 _ zoom l1.1 l1.2]; omega
  have w4 : latOf (c + 1) zoom < (along a b s2).2 := by rw [← not_le, ← row_le_iff (c + 1) (along a b s2).1 _ zoom l2.1 l2.2]; omega
  have key : ∀ u : ℝ, b.2 - a.2 ≠ 0 → along a b ((u - a.2) / (b.2 - a.2)) = (a.1 + (u - a.2) * ((b.1 - a.1) / (b.2 - a.2)), u) := by
    intro u hd
    unfold along
    ext
    · simp only; ring
    · simp only; field_simp; ring
  have hs2x : (along a b s2).2 = a.2 + s2 * (b.2 - a.2) := rfl
  have hs1x : (along a b s1).2 = a.2 + s1 * (b.2 - a.2) := rfl
  rcases lt_trichotomy a.2 b.2 with hab | hab | hab
  · have hdx : 0 < b.2 - a.2 := by linarith
    have m1 : c ≤ (tile a.1 a.2 zoom).Y := by
      rw [← hc1]; exact tile_row_mono ha.1 (by rw [hs1x]; nlinarith) l1.2 _ _ _
    have m2 : (tile b.1 b.2 zoom).Y ≤ c := by
      rw [← hc2]; exact tile_row_mono l2.1 (by rw [hs2x]; nlinarith) hb.2 _ _ _
    have hal : a.2 ≤ latOf (c + 1) zoom := by rw [← row_le_iff (c + 1) a.1 a.2 zoom ha.1 ha.2]; omega
    have hext : (along a b s1).2 + eps < (along a b s2).2 := by
      rw [abs_of_nonneg (by rw [hs1x, hs2x]; nlinarith)] at he; linarith
    rw [abs_of_nonneg (by omega)] at hy
    have hk := key (latOf (c + 1) zoom + eps) hdx.ne'
    have u1 : -90 < latOf (c + 1) zoom + eps := by linarith
    have u2 : latOf (c + 1) zoom + eps < 90 := by linarith
    refine ⟨(latOf (c + 1) zoom + eps - a.2) / (b.2 - a.2), div_nonneg (by linarith) hdx.le, ?_, ?_, ?_⟩
    · rw [div_le_iff₀ hdx]; rw [hs2x] at hext; linarith
    · rw [hk]
      apply le_antisymm
      · have : ¬ (c + 1 ≤ (tile (a.1 + (latOf (c + 1) zoom + eps - a.2) * ((b.1 - a.1) / (b.2 - a.2))) (latOf (c + 1) zoom + eps) zoom).Y) := by
          rw [row_le_iff _ _ _ _ u1 u2]; linarith
        simp only; omega
      · rw [row_le_iff _ _ _ _ u1 u2]; linarith
    · rw [hk, mem_between]
      right; right; right
      by_cases hcb : c = (tile b.1 b.2 zoom).Y
      · exact ⟨c + 1, by omega, c + 1, by omega, _, Or.inr rfl, rfl⟩
      · exact ⟨c, by omega, c + 1, by omega, _, Or.inr rfl, rfl⟩
  · exfalso
    rw [hs1x, hs2x, hab] at he
    simp at he
    linarith
  · have hdx : b.2 - a.2 < 0 := by linarith
    have m1 : (tile a.1 a.2 zoom).Y ≤ c := by
      rw [← hc1]; exact tile_row_mono l1.1 (by rw [hs1x]; nlinarith) ha.2 _ _ _
    have m2 : c ≤ (tile b.1 b.2 zoom).Y := by
      rw [← hc2]; exact tile_row_mono hb.1 (by rw [hs2x]; nlinarith) l2.2 _ _ _
    have hal : latOf c zoom < a.2 := by rw [← not_le, ← row_le_iff c a.1 a.2 zoom ha.1 ha.2]; omega
    have hext : (along a b s2).2 < (along a b s1).2 - eps := by
      rw [abs_of_nonpos (by rw [hs1x, hs2x]; nlinarith)] at he; linarith
    rw [abs_of_nonpos (by omega)] at hy
    have hk := key (latOf c zoom - eps) hdx.ne
    have u1 : -90 < latOf c zoom - eps := by linarith
    have u2 : latOf c zoom - eps < 90 := by linarith
    refine ⟨(latOf c zoom - eps - a.2) / (b.2 - a.2), div_nonneg_of_nonpos (by linarith) hdx.le, ?_, ?_, ?_⟩
    · rw [div_le_iff_of_neg hdx]; rw [hs2x] at hext; linarith
    · rw [hk]
      apply le_antisymm
      · have : ¬ (c + 1 ≤ (tile (a.1 + (latOf c zoom - eps - a.2) * ((b.1 - a.1) / (b.2 - a.2))) (latOf c zoom - eps) zoom).Y) := by
          rw [row_le_iff _ _ _ _ u1 u2]; linarith
        simp only; omega
      · rw [row_le_iff _ _ _ _ u1 u2]; linarith
    · rw [hk, mem_between]
      right; right; right
      by_cases hcb : c = (tile b.1 b.2 zoom).Y
      · exact ⟨c - 1, by omega, c, by omega, _, Or.inl rfl, rfl⟩
      · exact ⟨c, by omega, c, by omega, _, Or.inl rfl, rfl⟩

theorem col_gate (a b p : Pt) (zoom : Nat) (hz : zoom < 9223372036854775808)
    (hx : 2 ≤ |(tile a.1 a.2 zoom).X - (tile b.1 b.2 zoom).X|) :
    |b.1 - a.1| > (bounds (tile p.1 p.2 zoom)).E - (bounds (tile p.1 p.2 zoom)).W := by
  have hwid : ∀ v : Int, lonOf (v + 1) zoom - lonOf v zoom = 360 / 2 ^ zoom := by
    intro v; unfold lonOf; push_cast; field_simp; ring
  have e : (bounds (tile p.1 p.2 zoom)).E - (bounds (tile p.1 p.2 zoom)).W = 360 / 2 ^ zoom := by
    have hZ := tile_Z p.1 p.2 zoom hz
    generalize tile p.1 p.2 zoom = T at *
    obtain ⟨X, Y, Z⟩ := T
    simp only at hZ
    subst hZ
    rw [bounds_eq]
    exact hwid X
  have core : ∀ a b : Pt, (tile a.1 a.2 zoom).X + 2 ≤ (tile b.1 b.2 zoom).X → 360 / 2 ^ zoom < b.1 - a.1 := by
    intro a b h
    have h1 : a.1 < lonOf ((tile a.1 a.2 zoom).X + 1) zoom := by rw [← not_le, ← col_le_iff _ a.1 a.2]; omega
    have h2 : lonOf ((tile a.1 a.2 zoom).X + 1 + 1) zoom ≤ b.1 := by rw [← col_le_iff _ b.1 b.2]; omega
    have := hwid ((tile a.1 a.2 zoom).X + 1)
    linarith
  rw [e]
  rcases le_total ((tile a.1 a.2 zoom).X) ((tile b.1 b.2 zoom).X) with h | h
  · rw [abs_of_nonpos (by omega)] at hx
    exact lt_of_lt_of_le (core a b (by omega)) (le_abs_self _)
  · rw [abs_of_nonneg (by omega)] at hx
    rw [abs_sub_comm]
    exact lt_of_lt_of_le (core b a (by omega)) (le_abs_self _)

theorem along_swap (a b : Pt) (s : ℝ) : along b a (1 - s) = along a b s := by
  unfold along
  ext <;> simp only <;> ring

theorem between_swap (a b : Pt) (zoom : Nat) (t : TileID) (h : t ∈ betweenTiles b a zoom) (ha : -90 < a.2 ∧ a.2 < 90)
    (hb : -90 < b.2 ∧ b.2 < 90) : t ∈ betweenTiles a b zoom := by
  rw [mem_between] at h ⊢
  rcases h with h | h | ⟨v, hv, w, hw, u, hu, h⟩ | ⟨v, hv, w, hw, u, hu, h⟩
  · exact Or.inr (Or.inl h)
  · exact Or.inl h
  · right; right; left
    have hd : a.1 ≠ b.1 := by
      intro e
      have h1 := tile_col_mono (le_of_eq e) a.2 b.2 zoom
      have h2 := tile_col_mono (le_of_eq e.symm) b.2 a.2 zoom
      omega
    have d1 : a.1 - b.1 ≠ 0 := sub_ne_zero.2 hd
    have d2 : b.1 - a.1 ≠ 0 := sub_ne_zero.2 hd.symm
    refine ⟨v, hv.symm, w, hw, u, hu, ?_⟩
    rw [h]
    congr 1
    have : (b.2 - a.2) / (b.1 - a.1) = (a.2 - b.2) / (a.1 - b.1) := by
      rw [div_eq_div_iff d2 d1]; ring
    rw [this]
    field_simp
    ring
  · right; right; right
    have hd : a.2 ≠ b.2 := by
      intro e
      have h1 := tile_row_mono ha.1 (le_of_eq e) hb.2 a.1 b.1 zoom
      have h2 := tile_row_mono hb.1 (le_of_eq e.symm) ha.2 b.1 a.1 zoom
      omega
    have d1 : a.2 - b.2 ≠ 0 := sub_ne_zero.2 hd
    have d2 : b.2 - a.2 ≠ 0 := sub_ne_zero.2 hd.symm
    refine ⟨v, hv.symm, w, hw, u, hu, ?_⟩
    rw [h]
    congr 1
    have : (b.1 - a.1) / (b.2 - a.2) = (a.1 - b.1) / (a.2 - b.2) := by
      rw [div_eq_div_iff d2 d1]; ring
    rw [this]
    field_simp
    ring

/-- A stretch of the segment from `s1` to `s2`, both ends in the tile `t`. -/
structure Stretch (a b : Pt) (zoom : Nat) (t : TileID) (s1 s2 : ℝ) : Prop where
  start : 0 ≤ s1
  order : s1 ≤ s2
  stop : s2 ≤ 1
  first : tile (along a b s1).1 (along a b s1).2 zoom = t
  last : tile (along a b s2).1 (along a b s2).2 zoom = t

theorem Stretch.swap {a b : Pt} {zoom : Nat} {t : TileID} {s1 s2 : ℝ} (h : Stretch a b zoom t s1 s2) : Stretch b a zoom t (1 - s2) (1 - s1) :=
  ⟨by linarith [h.stop], by linarith [h.order], by linarith [h.start], by rw [along_swap]; exact h.last, by rw [along_swap]; exact h.first⟩

section
variable {a b : Pt} {zoom : Nat} (hz : zoom < 9223372036854775808) (ha : -90 < a.2 ∧ a.2 < 90) (hb : -90 < b.2 ∧ b.2 < 90)
  {t : TileID} {s1 s2 : ℝ} (hs : Stretch a b zoom t s1 s2)
include hz ha hb hs

theorem stretch_row_start (hx : 2 ≤ |(tile a.1 a.2 zoom).X - (tile b.1 b.2 zoom).X|) (hex : eps < |(along a b s2).1 - (along a b s1).1|)
    (cy : t.Y = (tile a.1 a.2 zoom).Y) : t ∈ betweenTiles a b zoom := by
  obtain ⟨h0, h1, h2, ht1, ht2⟩ := hs
  have hZ : ∀ q : Pt, (tile q.1 q.2 zoom).Z = zoom := fun q => tile_Z _ _ _ hz
  have htZ : t.Z = zoom := by rw [← ht1]; exact hZ _
  have q0 : along a b 0 = a := by simp [along]
  by_cases cx : t.X = (tile a.1 a.2 zoom).X
  · rw [mem_between]; exact Or.inl (tile_ext cx cy (by rw [htZ, hZ]))
  · obtain ⟨s, g0, g1, g2, g3⟩ := col_sample a b zoom hx s1 s2 h0 h1 h2 t.X (by rw [ht1]) (by rw [ht2]) cx hex
    have := row_convex ha hb zoom le_rfl g0 g1 h2 (by rw [q0, ht2, cy])
    rw [ht2] at this
    have e : tile (along a b s).1 (along a b s).2 zoom = t := tile_ext g2 this (by rw [htZ, hZ])
    rw [← e]; exact g3

theorem stretch_col_start (hy : 2 ≤ |(tile a.1 a.2 zoom).Y - (tile b.1 b.2 zoom).Y|) (hey : eps < |(along a b s2).2 - (along a b s1).2|)
    (cx : t.X = (tile a.1 a.2 zoom).X) : t ∈ betweenTiles a b zoom := by
  obtain ⟨h0, h1, h2, ht1, ht2⟩ := hs
  have hZ : ∀ q : Pt, (tile q.1 q.2 zoom).Z = zoom := fun q => tile_Z _ _ _ hz
  have htZ : t.Z = zoom := by rw [← ht1]; exact hZ _
  have q0 : along a b 0 = a := by simp [along]
  by_cases cy : t.Y = (tile a.1 a.2 zoom).Y
  · rw [mem_between]; exact Or.inl (tile_ext cx cy (by rw [htZ, hZ]))
  · obtain ⟨s, g0, g1, g2, g3⟩ := row_sample a b zoom ha hb hy s1 s2 h0 h1 h2 t.Y (by rw [ht1]) (by rw [ht2]) cy hey
    have := col_convex (a := a) (b := b) zoom g0 g1 (by rw [q0, ht2, cx])
    rw [ht2] at this
    have e : tile (along a b s).1 (along a b s).2 zoom = t := tile_ext this g2 (by rw [htZ, hZ])
    rw [← e]; exact g3

theorem stretch_both (hx : 2 ≤ |(tile a.1 a.2 zoom).X - (tile b.1 b.2 zoom).X|) (hy : 2 ≤ |(tile a.1 a.2 zoom).Y - (tile b.1 b.2 zoom).Y|)
    (hex : eps < |(along a b s2).1 - (along a b s1).1|) (hey : eps < |(along a b s2).2 - (along a b s1).2|) :
    t ∈ betweenTiles a b zoom := by
  by_cases cx : t.X = (tile a.1 a.2 zoom).X
  · exact stretch_col_start hz ha hb hs hy hey cx
  by_cases cy : t.Y = (tile a.1 a.2 zoom).Y
  · exact stretch_row_start hz ha hb hs hx hex cy
  obtain ⟨h0, h1, h2, ht1, ht2⟩ := hs
  have hZ : ∀ q : Pt, (tile q.1 q.2 zoom).Z = zoom := fun q => tile_Z _ _ _ hz
  have htZ : t.Z = zoom := by rw [← ht1]; exact hZ _
  obtain ⟨s, g0, g1, g2, g3⟩ := col_sample a b zoom hx s1 s2 h0 h1 h2 t.X (by rw [ht1]) (by rw [ht2]) cx hex
  obtain ⟨s', k0, k1, k2, k3⟩ := row_sample a b zoom ha hb hy s1 s2 h0 h1 h2 t.Y (by rw [ht1]) (by rw [ht2]) cy hey
  rcases le_total s s' with hss | hss
  · have := col_convex (a := a) (b := b) zoom hss k1 (by rw [g2, ht2])
    rw [ht2] at this
    have e : tile (along a b s').1 (along a b s').2 zoom = t := tile_ext this k2 (by rw [htZ, hZ])
    rw [← e]; exact k3
  · have := row_convex ha hb zoom k0 hss g1 h2 (by rw [k2, ht2])
    rw [ht2] at this
    have e : tile (along a b s).1 (along a b s).2 zoom = t := tile_ext g2 this (by rw [htZ, hZ])
    rw [← e]; exact g3

theorem stretch_between (hxy : 2 ≤ |(tile a.1 a.2 zoom).X - (tile b.1 b.2 zoom).X| ∨ 2 ≤ |(tile a.1 a.2 zoom).Y - (tile b.1 b.2 zoom).Y|)
    (hex : 2 ≤ |(tile a.1 a.2 zoom).X - (tile b.1 b.2 zoom).X| → eps < |(along a b s2).1 - (along a b s1).1|)
    (hey : 2 ≤ |(tile a.1 a.2 zoom).Y - (tile b.1 b.2 zoom).Y| → eps < |(along a b s2).2 - (along a b s1).2|) :
    t ∈ betweenTiles a b zoom := by
  have q0 : along a b 0 = a := by simp [along]
  have q1 : along a b 1 = b := by simp [along]
  have hex' : |(along b a (1 - s1)).1 - (along b a (1 - s2)).1| = |(along a b s2).1 - (along a b s1).1| := by
    rw [along_swap, along_swap, abs_sub_comm]
  have hey' : |(along b a (1 - s1)).2 - (along b a (1 - s2)).2| = |(along a b s2).2 - (along a b s1).2| := by
    rw [along_swap, along_swap, abs_sub_comm]
  by_cases hx : 2 ≤ |(tile a.1 a.2 zoom).X - (tile b.1 b.2 zoom).X|
  · by_cases hy : 2 ≤ |(tile a.1 a.2 zoom).Y - (tile b.1 b.2 zoom).Y|
    · exact stretch_both hz ha hb hs hx hy (hex hx) (hey hy)
    · have hrow : t.Y = (tile a.1 a.2 zoom).Y ∨ t.Y = (tile b.1 b.2 zoom).Y := by
        have l1 := along_lat ha hb hs.start (by linarith [hs.order, hs.stop])
        rcases along_y_between (a := a) (b := b) hs.start (by linarith [hs.order, hs.stop] : s1 ≤ 1) with ⟨e1, e2⟩ | ⟨e1, e2⟩
        · rw [q0] at e1
          rw [q1] at e2
          have m1 := tile_row_mono ha.1 e1 l1.2 a.1 (along a b s1).1 zoom
          have m2 := tile_row_mono l1.1 e2 hb.2 (along a b s1).1 b.1 zoom
          rw [hs.first] at m1 m2
          rw [abs_of_nonneg (by omega)] at hy
          omega
        · rw [q1] at e1
          rw [q0] at e2
          have m1 := tile_row_mono hb.1 e1 l1.2 b.1 (along a b s1).1 zoom
          have m2 := tile_row_mono l1.1 e2 ha.2 (along a b s1).1 a.1 zoom
          rw [hs.first] at m1 m2
          rw [abs_of_nonpos (by omega)] at hy
          omega
      rcases hrow with h | h
      · exact stretch_row_start hz ha hb hs hx (hex hx) h
      · exact between_swap a b zoom t (stretch_row_start hz hb ha hs.swap (by rw [abs_sub_comm]; exact hx) (by rw [hex']; exact hex hx) h) ha hb
  · have hy : 2 ≤ |(tile a.1 a.2 zoom).Y - (tile b.1 b.2 zoom).Y| := by tauto
    have hcol : t.X = (tile a.1 a.2 zoom).X ∨ t.X = (tile b.1 b.2 zoom).X := by
      rcases along_x_between (a := a) (b := b) hs.start (by linarith [hs.order, hs.stop] : s1 ≤ 1) with ⟨e1, e2⟩ | ⟨e1, e2⟩
      · rw [q0] at e1
        rw [q1] at e2
        have m1 := tile_col_mono e1 a.2 (along a b s1).2 zoom
        have m2 := tile_col_mono e2 (along a b s1).2 b.2 zoom
        rw [hs.first] at m1 m2
        rw [abs_of_nonpos (by omega)] at hx
        omega
      · rw [q1] at e1
        rw [q0] at e2
        have m1 := tile_col_mono e1 b.2 (along a b s1).2 zoom
        have m2 := tile_col_mono e2 (along a b s1).2 a.2 zoom
        rw [hs.first] at m1 m2
        rw [abs_of_nonneg (by omega)] at hx
        omega
    rcases hcol with h | h
    · exact stretch_col_start hz ha hb hs hy (hey hy) h
    · exact between_swap a b zoom t (stretch_col_start hz hb ha hs.swap (by rw [abs_sub_comm]; exact hy) (by rw [hey']; exact hey hy) h) ha hb
end

/-- C09: take two consecutive vertices whose tiles are two or more columns apart, or two or more rows apart and (the condition
under which the code looks between vertices) farther apart than the size of the tile of the line's first vertex. Then the
cover has every tile in which the segment has two points more than .0000001 apart, in longitude and latitude (in a direction
in which the tiles of the vertices are less than two apart this is not needed). If the tiles of the vertices are just one
column and one row apart a tile may be missing: `C09_misses_corner`. -/
theorem C09_long_complete (ord : Nat → List TileID → List TileID) (ho : ∀ n l, (ord n l).Perm l) (p : Pt) (rest : List Pt)
    (zoom : Nat) (hz : zoom < 9223372036854775808) (r : List TileID) (h : getTilesLine ord (p :: rest) zoom = some r) (a b : Pt)
    (hab : (a, b) ∈ (p :: rest).zip rest) (ha : -90 < a.2 ∧ a.2 < 90) (hb : -90 < b.2 ∧ b.2 < 90)
    (hfar : 2 ≤ |(tile a.1 a.2 zoom).X - (tile b.1 b.2 zoom).X| ∨
      2 ≤ |(tile a.1 a.2 zoom).Y - (tile b.1 b.2 zoom).Y| ∧
        (|b.1 - a.1| > (bounds (tile p.1 p.2 zoom)).E - (bounds (tile p.1 p.2 zoom)).W ∨
         |b.2 - a.2| > (bounds (tile p.1 p.2 zoom)).N - (bounds (tile p.1 p.2 zoom)).S))
    (t : TileID) (s1 s2 : ℝ) (h0 : 0 ≤ s1) (h1 : s1 ≤ s2) (h2 : s2 ≤ 1)
    (ht1 : tile (along a b s1).1 (along a b s1).2 zoom = t) (ht2 : tile (along a b s2).1 (along a b s2).2 zoom = t)
    (hex : 2 ≤ |(tile a.1 a.2 zoom).X - (tile b.1 b.2 zoom).X| → eps < |(along a b s2).1 - (along a b s1).1|)
    (hey : 2 ≤ |(tile a.1 a.2 zoom).Y - (tile b.1 b.2 zoom).Y| → eps < |(along a b s2).2 - (along a b s1).2|) : t ∈ r := by
  have hgate : |b.1 - a.1| > (bounds (tile p.1 p.2 zoom)).E - (bounds (tile p.1 p.2 zoom)).W ∨
         |b.2 - a.2| > (bounds (tile p.1 p.2 zoom)).N - (bounds (tile p.1 p.2 zoom)).S := by
    rcases hfar with hx | hx
    · exact Or.inl (col_gate a b p zoom hz hx)
    · exact hx.2
  have hxy : 2 ≤ |(tile a.1 a.2 zoom).X - (tile b.1 b.2 zoom).X| ∨ 2 ≤ |(tile a.1 a.2 zoom).Y - (tile b.1 b.2 zoom).Y| := by tauto
  simp only [getTilesLine, Option.some.injEq] at h
  rw [← h, lineLoop_mem _ ho]
  right; right
  exact ⟨(a, b), hab, hgate, stretch_between hz ha hb ⟨h0, h1, h2, ht1, ht2⟩ hxy hex hey⟩

/-- a case that meets the hypotheses: a line from the south west to the north east -/
theorem C09_long_example (ord : Nat → List TileID → List TileID) (ho : ∀ n l, (ord n l).Perm l) :
    ∃ r, getTilesLine ord [(-100, -60), (100, 60)] 2 = some r ∧ (⟨2, 1, 2⟩ : TileID) ∈ r := by
  obtain ⟨r, hr, -⟩ := C09_nodup_zoom_vertices ord ho (-100, -60) [(100, 60)] 2 (by norm_num)
  refine ⟨r, hr, ?_⟩
  have hlat := arctan_sinh_half
  have c : ∀ (x y : ℝ) (k : Int), (k : ℝ) ≤ (x + 180) / 90 → (x + 180) / 90 < k + 1 → (tile x y (2 : Nat)).X = k := by
    intro x y k h1 h2
    unfold tile
    simp only
    rw [Int.floor_eq_iff]
    have : (x + 180) / 360 * (2 : ℝ) ^ ((2 : Nat) : Int) = (x + 180) / 90 := by norm_num; ring
    rw [this]; exact ⟨h1, h2⟩
  have c2 := c (-100) (-60) 0 (by norm_num) (by norm_num)
  have c3 := c 100 60 3 (by norm_num) (by norm_num)
  have ht : ∀ x y : ℝ, 0 ≤ x → x < 90 → 0 < y → y ≤ 45 → tile x y (2 : Nat) = ⟨2, 1, 2⟩ := by
    intro x y h1 h2 h3 h4
    refine (C05_tile_iff_in_bounds _ _ 2 1 2 (by norm_num) (by linarith) (by linarith)).2 ?_
    rw [bounds_212]
    exact ⟨by simp only; linarith, by simp only; linarith, by simp only; linarith, by simp only; linarith⟩
  have e1 : along (-100, -60) (100, 60) (51 / 100) = (2, 6 / 5) := by unfold along; norm_num
  have e2 : along (-100, -60) (100, 60) (55 / 100) = (10, 6) := by unfold along; norm_num
  refine C09_long_complete ord ho _ _ 2 (by norm_num) r hr (-100, -60) (100, 60) (by simp) (by norm_num) (by norm_num)
    (Or.inl ?_) ⟨2, 1, 2⟩ (51 / 100) (55 / 100) (by norm_num) (by norm_num) (by norm_num) ?_ ?_ (fun _ => ?_) (fun _ => ?_)
  · simp only; rw [c2, c3]; norm_num
  · rw [e1]; exact ht _ _ (by norm_num) (by norm_num) (by norm_num) (by norm_num)
  · rw [e2]; exact ht _ _ (by norm_num) (by norm_num) (by norm_num) (by norm_num)
  · rw [e1, e2]; unfold eps; norm_num
  · rw [e1, e2]; unfold eps; norm_num

end Verif.Cover
