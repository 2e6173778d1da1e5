import Verif.Model.Sprite
import Verif.Spec.Sprite
import Mathlib.Data.List.Basic
import Mathlib.Data.List.Perm.Basic
import Mathlib.Tactic.Linarith

namespace Verif.Sprite
open Verif.Go

/-- free regions of a tree -/
def leaves : Tree → List Rect
  | .leaf x y w h => [⟨x, y, w, h⟩]
  | .used _ _ _ _ r d => leaves r ++ leaves d

theorem place_spec : ∀ (t : Tree) (p : List Dir) (w h : Int), findNode t w h = some p →
    ∃ t' x y, splitNode t p w h = some (t', x, y) ∧ ∃ l1 l2 W H, leaves t = l1 ++ ⟨x, y, W, H⟩ :: l2 ∧ w ≤ W ∧ h ≤ H ∧
      leaves t' = l1 ++ ⟨x + w, y, W - w, h⟩ :: ⟨x, y + h, W, H - h⟩ :: l2 ∧ t'.width = t.width ∧ t'.height = t.height
  | .leaf x y W H, p, w, h, hf => by
    unfold findNode at hf
    split at hf
    · rename_i hc
      cases hf
      exact ⟨_, _, _, rfl, [], [], W, H, rfl, hc.1, hc.2, rfl, rfl, rfl⟩
    · cases hf
  | .used x y W H r d, p, w, h, hf => by
    unfold findNode at hf
    split at hf
    · rename_i q hq
      cases hf
      obtain ⟨t', x', y', e, l1, l2, W', H', h1, h2, h3, h4, _, _⟩ := place_spec r q w h hq
      refine ⟨.used x y W H t' d, x', y', ?_, l1, l2 ++ leaves d, W', H', ?_, h2, h3, ?_, rfl, rfl⟩
      · simp [splitNode, e]
      · simp [leaves, h1]
      · simp [leaves, h4]
    · rw [Option.map_eq_some_iff] at hf
      obtain ⟨q, hq, rfl⟩ := hf
      obtain ⟨t', x', y', e, l1, l2, W', H', h1, h2, h3, h4, _, _⟩ := place_spec d q w h hq
      refine ⟨.used x y W H r t', x', y', ?_, leaves r ++ l1, l2, W', H', ?_, h2, h3, ?_, rfl, rfl⟩
      · simp [splitNode, e]
      · simp [leaves, h1]
      · simp [leaves, h4]

/-- invariant of the packer: free regions and placed rectangles are disjoint and inside the root area -/
structure Inv (t : Tree) (placed : List Rect) : Prop where
  wi : ∀ r ∈ leaves t ++ placed, r.Within t.width t.height
  dj : (leaves t ++ placed).Pairwise Rect.Disjoint
  nw : 0 ≤ t.width
  nh : 0 ≤ t.height

theorem Rect.disjoint_comm {a b : Rect} (h : a.Disjoint b) : b.Disjoint a := fun p q hh => h p q ⟨hh.2, hh.1⟩

instance : Std.Symm Rect.Disjoint := ⟨fun _ _ h => Rect.disjoint_comm h⟩

/-- one block placed in a free region keeps the invariant -/
theorem inv_place {t t' : Tree} {placed : List Rect} {x y w h : Int} (hi : Inv t placed) (hw : 0 ≤ w) (hh : 0 ≤ h)
    {l1 l2 : List Rect} {W H : Int} (h1 : leaves t = l1 ++ ⟨x, y, W, H⟩ :: l2) (h2 : w ≤ W) (h3 : h ≤ H)
    (h4 : leaves t' = l1 ++ ⟨x + w, y, W - w, h⟩ :: ⟨x, y + h, W, H - h⟩ :: l2)
    (h5 : t'.width = t.width) (h6 : t'.height = t.height) : Inv t' (⟨x, y, w, h⟩ :: placed) := by
  have hL : (⟨x, y, W, H⟩ : Rect).Within t.width t.height := hi.wi _ (by rw [h1]; simp)
  have hLd : ∀ r, r ∈ l1 ++ l2 ++ placed → (⟨x, y, W, H⟩ : Rect).Disjoint r := by
    have hp : (⟨x, y, W, H⟩ :: (l1 ++ l2 ++ placed)).Perm (leaves t ++ placed) := by
      rw [h1]
      simp only [List.append_assoc, List.cons_append]
      exact List.perm_middle.symm
    have := (hp.pairwise_iff (fun {a b} hab => Rect.disjoint_comm hab)).mpr hi.dj
    rw [List.pairwise_cons] at this
    exact this.1
  have hrest : (l1 ++ l2 ++ placed).Pairwise Rect.Disjoint := by
    have hp : (⟨x, y, W, H⟩ :: (l1 ++ l2 ++ placed)).Perm (leaves t ++ placed) := by
      rw [h1]
      simp only [List.append_assoc, List.cons_append]
      exact List.perm_middle.symm
    have := (hp.pairwise_iff (fun {a b} hab => Rect.disjoint_comm hab)).mpr hi.dj
    rw [List.pairwise_cons] at this
    exact this.2
  have sub : ∀ R : Rect, (∀ p q, R.Has p q → (⟨x, y, W, H⟩ : Rect).Has p q) → ∀ r, r ∈ l1 ++ l2 ++ placed → R.Disjoint r := by
    intro R hR r hr p q hh
    exact hLd r hr p q ⟨hR p q hh.1, hh.2⟩
  have hperm : (leaves t' ++ ⟨x, y, w, h⟩ :: placed).Perm
      (⟨x, y, w, h⟩ :: ⟨x + w, y, W - w, h⟩ :: ⟨x, y + h, W, H - h⟩ :: (l1 ++ l2 ++ placed)) := by
    rw [h4]
    refine List.perm_middle.trans ?_
    apply List.Perm.cons
    simp only [List.append_assoc, List.cons_append]
    refine List.perm_middle.trans ?_
    apply List.Perm.cons
    exact List.perm_middle
  refine ⟨?_, ?_, by rw [h5]; exact hi.nw, by rw [h6]; exact hi.nh⟩
  · intro r hr
    rw [hperm.mem_iff] at hr
    rw [h5, h6]
    unfold Rect.Within at hL ⊢
    simp only at hL
    simp only [List.mem_cons] at hr
    rcases hr with rfl | rfl | rfl | hr
    · simp only; omega
    · simp only; omega
    · simp only; omega
    · apply hi.wi
      rw [h1]
      simp only [List.mem_append, List.mem_cons] at hr ⊢
      tauto
  · rw [hperm.pairwise_iff (fun {a b} hab => Rect.disjoint_comm hab)]
    refine List.Pairwise.cons ?_ (List.Pairwise.cons ?_ (List.Pairwise.cons ?_ hrest))
    · intro r hr
      simp only [List.mem_cons] at hr
      rcases hr with rfl | rfl | hr
      · intro p q; unfold Rect.Has; simp only; omega
      · intro p q; unfold Rect.Has; simp only; omega
      · refine sub _ ?_ r hr
        intro p q; unfold Rect.Has; simp only; omega
    · intro r hr
      simp only [List.mem_cons] at hr
      rcases hr with rfl | hr
      · intro p q; unfold Rect.Has; simp only; omega
      · refine sub _ ?_ r hr
        intro p q; unfold Rect.Has; simp only; omega
    · intro r hr
      refine sub _ ?_ r hr
      intro p q; unfold Rect.Has; simp only; omega

/-- adding a free region beyond the old area keeps the invariant -/
theorem inv_grow {t t' : Tree} {placed : List Rect} {L : Rect} (hi : Inv t placed)
    (hp : (leaves t').Perm (L :: leaves t)) (hw : t.width ≤ t'.width) (hh : t.height ≤ t'.height)
    (hL : L.Within t'.width t'.height) (hout : t.width ≤ L.x ∨ t.height ≤ L.y) : Inv t' placed := by
  have hp' : (leaves t' ++ placed).Perm (L :: (leaves t ++ placed)) := by
    have := hp.append_right placed
    simpa using this
  refine ⟨?_, ?_, hi.nw.trans hw, hi.nh.trans hh⟩
  · intro r hr
    rw [hp'.mem_iff, List.mem_cons] at hr
    rcases hr with rfl | hr
    · exact hL
    · have := hi.wi r hr
      unfold Rect.Within at *
      omega
  · rw [hp'.pairwise_iff (fun {a b} hab => Rect.disjoint_comm hab), List.pairwise_cons]
    refine ⟨?_, hi.dj⟩
    intro r hr p q
    have := hi.wi r hr
    unfold Rect.Within at *
    unfold Rect.Has
    omega

theorem growDown_spec {t : Tree} {w h : Int} {placed : List Rect} (hi : Inv t placed) (hw : 0 ≤ w) (hh : 0 ≤ h)
    (hc : w ≤ t.width) : ∃ t' x y, growDown t w h = some (t', x, y) ∧ Inv t' (⟨x, y, w, h⟩ :: placed) ∧
      t.width ≤ t'.width ∧ t.height ≤ t'.height := by
  let T : Tree := .used 0 0 t.width (t.height + h) t (.leaf 0 t.height t.width h)
  have hT : Inv T placed := by
    refine inv_grow (L := ⟨0, t.height, t.width, h⟩) hi ?_ ?_ ?_ ?_ (Or.inr (le_refl _))
    · simp only [T, leaves]; exact List.perm_append_comm
    · exact le_refl _
    · simp only [T, Tree.height]; change t.height ≤ t.height + h; omega
    · have := hi.nw
      have := hi.nh
      unfold Rect.Within
      simp only [T]
      refine ⟨le_refl _, ?_, ?_, hh, ?_, ?_⟩ <;> first | assumption | (simp only [Tree.width, Tree.height]; omega)
  have hf : ∃ p, findNode T w h = some p := by
    simp only [T, findNode]
    split
    · exact ⟨_, rfl⟩
    · rw [if_pos ⟨hc, le_refl _⟩]; exact ⟨_, rfl⟩
  obtain ⟨p, hp⟩ := hf
  obtain ⟨t', x, y, e, l1, l2, W, H, h1, h2, h3, h4, h5, h6⟩ := place_spec T p w h hp
  refine ⟨t', x, y, ?_, inv_place hT hw hh h1 h2 h3 h4 h5 h6, ?_, ?_⟩
  · unfold growDown place
    change (match findNode T w h with | some p => splitNode T p w h | none => none) = _
    rw [hp]; exact e
  · rw [h5]; exact le_refl _
  · rw [h6]; change t.height ≤ t.height + h; omega

theorem growRight_spec {t : Tree} {w h : Int} {placed : List Rect} (hi : Inv t placed) (hw : 0 ≤ w) (hh : 0 ≤ h)
    (hc : h ≤ t.height) : ∃ t' x y, growRight t w h = some (t', x, y) ∧ Inv t' (⟨x, y, w, h⟩ :: placed) ∧
      t.width ≤ t'.width ∧ t.height ≤ t'.height := by
  let T : Tree := .used 0 0 (t.width + w) t.height (.leaf t.width 0 w t.height) t
  have hT : Inv T placed := by
    refine inv_grow (L := ⟨t.width, 0, w, t.height⟩) hi ?_ ?_ ?_ ?_ (Or.inl (le_refl _))
    · simp only [T, leaves]; exact List.Perm.refl _
    · change t.width ≤ t.width + w; omega
    · exact le_refl _
    · have := hi.nw
      have := hi.nh
      unfold Rect.Within
      refine ⟨hi.nw, le_refl _, hw, hi.nh, le_refl _, ?_⟩
      change 0 + t.height ≤ t.height
      omega
  have hf : ∃ p, findNode T w h = some p := by
    simp only [T, findNode]
    rw [if_pos ⟨le_refl _, hc⟩]; exact ⟨_, rfl⟩
  obtain ⟨p, hp⟩ := hf
  obtain ⟨t', x, y, e, l1, l2, W, H, h1, h2, h3, h4, h5, h6⟩ := place_spec T p w h hp
  refine ⟨t', x, y, ?_, inv_place hT hw hh h1 h2 h3 h4 h5 h6, ?_, ?_⟩
  · unfold growRight place
    change (match findNode T w h with | some p => splitNode T p w h | none => none) = _
    rw [hp]; exact e
  · rw [h5]; change t.width ≤ t.width + w; omega
  · rw [h6]; exact le_refl _

/-- one block: if it fits or one direction can grow, it is placed; otherwise the code panics -/
theorem fitOne_spec {t : Tree} {placed : List Rect} (hi : Inv t placed) (b : Block) (hw : 0 ≤ b.w) (hh : 0 ≤ b.h) :
    (∃ t' x y, fitOne t b = some (t', x, y) ∧ Inv t' (⟨x, y, b.w, b.h⟩ :: placed) ∧ t.width ≤ t'.width ∧
      t.height ≤ t'.height) ∨ (fitOne t b = none ∧ t.width < b.w ∧ t.height < b.h) := by
  unfold fitOne
  split
  · rename_i p hp
    left
    obtain ⟨t', x, y, e, l1, l2, W, H, h1, h2, h3, h4, h5, h6⟩ := place_spec t p b.w b.h hp
    exact ⟨t', x, y, e, inv_place hi hw hh h1 h2 h3 h4 h5 h6, h5.ge, h6.ge⟩
  · unfold growNode
    simp only
    split
    · rename_i h; left; exact growRight_spec hi hw hh h.1
    split
    · rename_i h; left; exact growDown_spec hi hw hh h.1
    split
    · rename_i h; left; exact growRight_spec hi hw hh h
    split
    · rename_i h; left; exact growDown_spec hi hw hh h
    · right; refine ⟨rfl, ?_, ?_⟩ <;> omega

/-- rectangle of a placed block -/
def rectOf (p : Block × Int × Int) : Rect := ⟨p.2.1, p.2.2, p.1.w, p.1.h⟩

theorem fitLoop_spec : ∀ (bs : List Block) (t : Tree) (placed : List Rect), Inv t placed →
    (∀ b ∈ bs, 0 ≤ b.w ∧ 0 ≤ b.h) → ∀ t' ps, fitLoop t bs = some (t', ps) →
      ps.map Prod.fst = bs ∧ Inv t' ((ps.map rectOf).reverse ++ placed)
  | [], t, placed, hi, _, t', ps, h => by
    simp only [fitLoop, Option.some.injEq, Prod.mk.injEq] at h
    obtain ⟨rfl, rfl⟩ := h
    exact ⟨rfl, by simpa using hi⟩
  | b :: bs, t, placed, hi, hn, t', ps, h => by
    have hb := hn b (by simp)
    unfold fitLoop at h
    rcases fitOne_spec hi b hb.1 hb.2 with ⟨t1, x, y, e, hi1, _, _⟩ | ⟨e, _, _⟩
    · rw [e] at h
      simp only at h
      cases hl : fitLoop t1 bs with
      | none => rw [hl] at h; cases h
      | some r =>
        obtain ⟨t2, ps2⟩ := r
        rw [hl] at h
        simp only [Option.some.injEq, Prod.mk.injEq] at h
        obtain ⟨rfl, rfl⟩ := h
        obtain ⟨i1, i2⟩ := fitLoop_spec bs t1 _ hi1 (fun b hb => hn b (by simp [hb])) t2 ps2 hl
        refine ⟨by simp [i1], ?_⟩
        simpa [rectOf] using i2
    · rw [e] at h; cases h

/-- the loop does not fail when no block exceeds the root in both dimensions -/
theorem fitLoop_some : ∀ (bs : List Block) (t : Tree) (placed : List Rect), Inv t placed →
    (∀ b ∈ bs, 0 ≤ b.w ∧ 0 ≤ b.h) → (∀ b ∈ bs, ¬ (t.width < b.w ∧ t.height < b.h)) → ∃ r, fitLoop t bs = some r
  | [], t, placed, hi, _, _ => ⟨_, rfl⟩
  | b :: bs, t, placed, hi, hn, hs => by
    have hb := hn b (by simp)
    unfold fitLoop
    rcases fitOne_spec hi b hb.1 hb.2 with ⟨t1, x, y, e, hi1, m1, m2⟩ | ⟨e, a1, a2⟩
    · rw [e]
      simp only
      obtain ⟨r, hr⟩ := fitLoop_some bs t1 _ hi1 (fun b hb => hn b (by simp [hb]))
        (fun c hc hcc => hs c (by simp [hc]) ⟨by omega, by omega⟩)
      rw [hr]
      exact ⟨_, rfl⟩
    · exact absurd ⟨a1, a2⟩ (hs b (by simp))

theorem inv_init (w h : Int) (hw : 0 ≤ w) (hh : 0 ≤ h) : Inv (.leaf 0 0 w h) [] := by
  refine ⟨?_, ?_, hw, hh⟩
  · intro r hr
    simp only [leaves, List.append_nil, List.mem_singleton] at hr
    subst hr
    refine ⟨le_refl _, le_refl _, hw, hh, ?_, ?_⟩
    · change 0 + w ≤ w; omega
    · change 0 + h ≤ h; omega
  · simp [leaves]

end Verif.Sprite
