import Verif.Model.Raster
import Mathlib.Tactic

/-! Lemmas about the pixel loops of raster.go. -/
namespace Verif.Raster

/-- Loop rule for `foldlM` in `Option`. -/
theorem foldlM_inv {α β : Type*} (f : β → α → Option β) (I : List α → β → Prop) :
    ∀ (l done : List α) (s : β), I done s →
      (∀ d a s, d ++ [a] <+: done ++ l → done <+: d → I d s → ∃ s', f s a = some s' ∧ I (d ++ [a]) s') →
      ∃ s', l.foldlM f s = some s' ∧ I (done ++ l) s'
  | [], done, s, h, _ => ⟨s, by simp [List.foldlM], by simpa using h⟩
  | a :: l, done, s, h, step => by
    obtain ⟨s1, h1, h2⟩ := step done a s
      (by simp [List.prefix_append_right_inj]) (List.prefix_refl _) h
    have := foldlM_inv f I l (done ++ [a]) s1 h2 (by
      intro d b s hd hp hi
      refine step d b s ?_ ?_ hi
      · simpa using hd
      · exact (List.prefix_append _ _).trans hp)
    obtain ⟨s', h3, h4⟩ := this
    refine ⟨s', ?_, by simpa using h4⟩
    simp [List.foldlM, h1, h3]

/-- Loop rule for counting loops. -/
theorem loop_inv (n : Nat) (f : List Px → Nat → Option (List Px)) (I : Nat → List Px → Prop)
    (s : List Px) (h0 : I 0 s)
    (step : ∀ k s, k < n → I k s → ∃ s', f s k = some s' ∧ I (k + 1) s') :
    ∃ s', loop n f s = some s' ∧ I n s' := by
  induction n with
  | zero => exact ⟨s, by simp [loop], h0⟩
  | succ n ih =>
    obtain ⟨s1, h1, h2⟩ := ih (fun k s hk => step k s (by omega))
    obtain ⟨s2, h3, h4⟩ := step n s1 (by omega) h2
    refine ⟨s2, ?_, h4⟩
    unfold loop at *
    rw [List.range_succ, List.foldlM_append, h1]
    simp [List.foldlM, h3]

/-- Every cell of `S` (row, column) holds the value `D` gives it. -/
def Good (s : Nat) (D : Nat → Nat → Px) (S : Nat → Nat → Prop) (img : List Px) : Prop :=
  img.length = s * s ∧ ∀ a b, a < s → b < s → S a b → img[a * s + b]? = some (D a b)

theorem cell_lt {s a b : Nat} (ha : a < s) (hb : b < s) : a * s + b < s * s := by
  have : (a + 1) * s ≤ s * s := Nat.mul_le_mul_right s ha
  nlinarith

theorem cell_inj {s a b a' b' : Nat} (hb : b < s) (hb' : b' < s)
    (h : a * s + b = a' * s + b') : a = a' ∧ b = b' := by
  have h1 : (a * s + b) / s = a := by
    rw [Nat.add_comm, Nat.add_mul_div_right _ _ (by omega), Nat.div_eq_of_lt hb]; simp
  have h2 : (a' * s + b') / s = a' := by
    rw [Nat.add_comm, Nat.add_mul_div_right _ _ (by omega), Nat.div_eq_of_lt hb']; simp
  have : a = a' := by rw [← h1, ← h2, h]
  subst this
  exact ⟨rfl, by omega⟩

/-- Writing a correct value keeps the image good and adds the cell. -/
theorem good_wr {s : Nat} {D : Nat → Nat → Px} {S S' : Nat → Nat → Prop} {img : List Px}
    (h : Good s D S img) (a b : Nat) (ha : a < s) (hb : b < s) (i : Nat) (hi : i = a * s + b)
    (hS : ∀ x y, x < s → y < s → S' x y → S x y ∨ (x = a ∧ y = b)) :
    ∃ img', wr img i (D a b) = some img' ∧ Good s D S' img' := by
  subst hi
  have hlt : a * s + b < img.length := by rw [h.1]; exact cell_lt ha hb
  refine ⟨img.set (a * s + b) (D a b), by simp only [wr, hlt, if_true], ?_, ?_⟩
  · simp [h.1]
  · intro x y hx hy hxy
    by_cases he : a * s + b = x * s + y
    · obtain ⟨rfl, rfl⟩ := cell_inj hb hy he
      rw [List.getElem?_set_self hlt]
    · rw [List.getElem?_set_ne he]
      rcases hS x y hx hy hxy with h1 | ⟨rfl, rfl⟩
      · exact h.2 x y hx hy h1
      · exact absurd rfl he

/-- Copying from a finished cell with the same final value. -/
theorem good_cp {s : Nat} {D : Nat → Nat → Px} {S S' : Nat → Nat → Prop} {img : List Px}
    (h : Good s D S img) (a b a' b' : Nat) (ha : a < s) (hb : b < s) (ha' : a' < s) (hb' : b' < s)
    (dst src : Nat) (hd : dst = a * s + b) (hs : src = a' * s + b')
    (hsrc : S a' b') (hD : D a b = D a' b')
    (hS : ∀ x y, x < s → y < s → S' x y → S x y ∨ (x = a ∧ y = b)) :
    ∃ img', cp img dst src = some img' ∧ Good s D S' img' := by
  have h1 := h.2 a' b' ha' hb' hsrc
  obtain ⟨img', h2, h3⟩ := good_wr h a b ha hb dst hd hS
  refine ⟨img', ?_, h3⟩
  subst hs
  simp only [cp, h1]
  rw [← hD, h2]

theorem good_mono {s : Nat} {D : Nat → Nat → Px} {S S' : Nat → Nat → Prop} {img : List Px}
    (h : Good s D S img) (hS : ∀ x y, x < s → y < s → S' x y → S x y) : Good s D S' img :=
  ⟨h.1, fun a b ha hb hab => h.2 a b ha hb (hS a b ha hb hab)⟩

/-- Clamp a stored row/column number (0 = border) to the pixels `0 … dim-1`. -/
def clampIx (dim a : Nat) : Nat := min (a - 1) (dim - 1)

/-- The value the stored cell (row `a`, column `b`) must end with. -/
def want (data : List Px) (dim a b : Nat) : Px :=
  (data[clampIx dim a * dim + clampIx dim b]?).getD Px.zero

theorem fill_good (data : List Px) (dim : Nat) (hd : 1 ≤ dim) (hlen : dim * dim ≤ data.length)
    (img0 : List Px) (h0 : img0.length = (dim + 2) * (dim + 2)) :
    ∃ i1 i2 i3, fillInner data dim (dim + 2) img0 = some i1 ∧ fillSides dim (dim + 2) i1 = some i2 ∧
      fillTopBottom dim (dim + 2) i2 = some i3 ∧
      Good (dim + 2) (want data dim) (fun _ _ => True) i3 := by
  have g0 : Good (dim + 2) (want data dim) (fun a b => 1 ≤ a ∧ a ≤ 0 ∧ 1 ≤ b ∧ b ≤ dim) img0 :=
    ⟨h0, fun a b _ _ h => by omega⟩
  obtain ⟨i1, e1, g1⟩ := loop_inv dim
    (fun img r => loop dim (fun img c =>
      cpFrom data img ((r + 1) * (dim + 2) + c + 1) (r * dim + c)) img)
    (fun r => Good (dim + 2) (want data dim) (fun a b => 1 ≤ a ∧ a ≤ r ∧ 1 ≤ b ∧ b ≤ dim)) img0 g0
    (by
      intro r img hr hg
      obtain ⟨i', e', g'⟩ := loop_inv dim
        (fun img c => cpFrom data img ((r + 1) * (dim + 2) + c + 1) (r * dim + c))
        (fun c => Good (dim + 2) (want data dim) (fun a b => 1 ≤ a ∧ 1 ≤ b ∧
          (a ≤ r ∧ b ≤ dim ∨ a = r + 1 ∧ b ≤ c))) img
        (good_mono hg (by intro x y _ _ h; omega))
        (by
          intro c img hc hg
          have hsrc : r * dim + c < data.length :=
            lt_of_lt_of_le (cell_lt hr hc) hlen
          have hv : data[r * dim + c]? = some (want data dim (r + 1) (c + 1)) := by
            have h1 : clampIx dim (r + 1) = r := by unfold clampIx; omega
            have h2 : clampIx dim (c + 1) = c := by unfold clampIx; omega
            simp [want, h1, h2, List.getElem?_eq_getElem hsrc]
          simp only [cpFrom, hv]
          exact good_wr hg (r + 1) (c + 1) (by omega) (by omega) _ (by ring)
            (by intro x y _ _ h; omega))
      exact ⟨i', e', good_mono g' (by intro x y _ _ h; omega)⟩)
  have g1' : Good (dim + 2) (want data dim)
      (fun a b => 1 ≤ a ∧ a ≤ dim ∧ (1 ≤ b ∧ b ≤ dim ∨ a ≤ 0)) i1 :=
    good_mono g1 (by intro x y _ _ h; omega)
  obtain ⟨i2, e2, g2⟩ := loop_inv dim
    (fun img x =>
      let rowOffset := (dim + 2) * (x + 1)
      match cp img rowOffset (rowOffset + 1) with
      | none => none
      | some img => cp img (rowOffset + dim + 1) (rowOffset + dim))
    (fun k => Good (dim + 2) (want data dim)
      (fun a b => 1 ≤ a ∧ a ≤ dim ∧ (1 ≤ b ∧ b ≤ dim ∨ a ≤ k))) i1 g1'
    (by
      intro k img hk hg
      obtain ⟨j1, f1, q1⟩ := good_cp (S' := fun a b => 1 ≤ a ∧ a ≤ dim ∧
          (1 ≤ b ∧ b ≤ dim ∨ a ≤ k ∨ a = k + 1 ∧ b = 0)) hg (k + 1) 0 (k + 1) 1
        (by omega) (by omega) (by omega) (by omega)
        ((dim + 2) * (k + 1)) ((dim + 2) * (k + 1) + 1) (by ring) (by ring) (by omega)
        (by simp [want, clampIx]) (by intro x y _ _ h; omega)
      obtain ⟨j2, f2, q2⟩ := good_cp (S' := fun a b => 1 ≤ a ∧ a ≤ dim ∧
          (1 ≤ b ∧ b ≤ dim ∨ a ≤ k + 1)) q1 (k + 1) (dim + 1) (k + 1) dim
        (by omega) (by omega) (by omega) (by omega)
        ((dim + 2) * (k + 1) + dim + 1) ((dim + 2) * (k + 1) + dim) (by ring) (by ring) (by omega)
        (by simp [want, clampIx]) (by intro x y _ _ h; omega)
      exact ⟨j2, by simp only [f1, f2], q2⟩)
  have g2' : Good (dim + 2) (want data dim)
      (fun a b => 1 ≤ a ∧ a ≤ dim ∨ b < 0) i2 :=
    good_mono g2 (by intro x y _ _ h; omega)
  obtain ⟨i3, e3, g3⟩ := loop_inv (dim + 2)
    (fun img r =>
      match cp img r ((dim + 2) + r) with
      | none => none
      | some img => cp img ((dim + 2) * (dim + 1) + r) ((dim + 2) * dim + r))
    (fun k => Good (dim + 2) (want data dim) (fun a b => 1 ≤ a ∧ a ≤ dim ∨ b < k)) i2 g2'
    (by
      intro k img hk hg
      obtain ⟨j1, f1, q1⟩ := good_cp (S' := fun a b => 1 ≤ a ∧ a ≤ dim ∨ b < k ∨ a = 0 ∧ b = k)
        hg 0 k 1 k (by omega) (by omega) (by omega) (by omega)
        k ((dim + 2) + k) (by ring) (by ring) (by omega)
        (by simp [want, clampIx]) (by intro x y _ _ h; omega)
      obtain ⟨j2, f2, q2⟩ := good_cp (S' := fun a b => 1 ≤ a ∧ a ≤ dim ∨ b < k + 1)
        q1 (dim + 1) k dim k (by omega) (by omega) (by omega) (by omega)
        ((dim + 2) * (dim + 1) + k) ((dim + 2) * dim + k) (by ring) (by ring) (by omega)
        (by simp [want, clampIx]) (by intro x y _ _ h; omega)
      exact ⟨j2, by simp only [f1, f2], q2⟩)
  exact ⟨i1, i2, i3, e1, e2, e3, good_mono g3 (by intro x y _ hy _; omega)⟩

/-- Two-dimensional loop over `irange`s: frame rule for cells not written. -/
theorem foldlM_preserve {α β : Type*} (f : β → α → Option β) (P : β → Prop) :
    ∀ (l : List α) (s s' : β), (∀ a ∈ l, ∀ s s', P s → f s a = some s' → P s') → P s →
      l.foldlM f s = some s' → P s'
  | [], s, s', _, h, he => by
    simp [List.foldlM] at he; exact he ▸ h
  | a :: l, s, s', hp, h, he => by
    simp only [List.foldlM] at he
    cases h1 : f s a with
    | none => rw [h1] at he; simp at he
    | some s1 =>
      rw [h1] at he
      exact foldlM_preserve f P l s1 s' (fun b hb => hp b (by simp [hb]))
        (hp a (by simp) s s1 h h1) (by simpa using he)

theorem mem_irange {lo hi x : Int} : x ∈ irange lo hi ↔ lo ≤ x ∧ x < hi := by
  unfold irange
  simp only [List.mem_map, List.mem_range]
  constructor
  · rintro ⟨k, hk, rfl⟩; omega
  · intro h; exact ⟨(x - lo).toNat, by omega, by omega⟩

end Verif.Raster
