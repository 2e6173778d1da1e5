import Verif.Spec.MvtClip
import Mathlib.Tactic

namespace Verif.Clip

section paths
variable {F : Type} [Field F] [LinearOrder F] [IsStrictOrderedRing F]

theorem coord_lerp (ax : Axis) (a b : F × F) (t : F) :
    coord ax (lerp a b t) = coord ax a + t * (coord ax b - coord ax a) := by cases ax <;> rfl

theorem lerp_zero (a b : F × F) : lerp a b 0 = a := by simp [lerp]
theorem lerp_one (a b : F × F) : lerp a b 1 = b := by simp [lerp]

theorem lerp_lerp (a b : F × F) (s u r : F) : lerp (lerp a b s) (lerp a b u) r = lerp a b (s + r * (u - s)) := by
  simp only [lerp, Prod.mk.injEq]; constructor <;> ring

theorem onSeg_lerp (a b : F × F) {s u : F} (h : s ≤ u) (p : F × F) :
    OnSeg (lerp a b s) (lerp a b u) p ↔ ∃ t, s ≤ t ∧ t ≤ u ∧ p = lerp a b t := by
  constructor
  · rintro ⟨r, h0, h1, rfl⟩
    refine ⟨s + r * (u - s), ?_, ?_, lerp_lerp ..⟩ <;> nlinarith
  · rintro ⟨t, h0, h1, rfl⟩
    rcases h.eq_or_lt with rfl | hlt
    · obtain rfl : t = s := le_antisymm h1 h0
      exact ⟨0, le_rfl, zero_le_one, by rw [lerp_zero]⟩
    · have hd : 0 < u - s := sub_pos.2 hlt
      refine ⟨(t - s) / (u - s), div_nonneg (by linarith) hd.le, (div_le_one hd).2 (by linarith), ?_⟩
      rw [lerp_lerp]; congr 1; field_simp; ring

theorem onSeg_self (a p : F × F) : OnSeg a a p ↔ p = a := by
  constructor
  · rintro ⟨t, _, _, rfl⟩; simp [lerp]
  · rintro rfl; exact ⟨0, le_rfl, zero_le_one, by simp [lerp]⟩

theorem onSeg_left (a b : F × F) : OnSeg a b a := ⟨0, le_rfl, zero_le_one, by simp [lerp]⟩
theorem onSeg_right (a b : F × F) : OnSeg a b b := ⟨1, zero_le_one, le_rfl, by simp [lerp]⟩

theorem onPath_append (l r : List (F × F)) (a p : F × F) :
    OnPath (l ++ a :: r) p ↔ OnPath (l ++ [a]) p ∨ OnPath (a :: r) p := by
  induction l with
  | nil =>
    cases r with
    | nil => simp [OnPath]
    | cons b r =>
      simp only [List.nil_append, OnPath]
      constructor
      · intro h; exact .inr h
      · rintro (rfl | h)
        · exact .inl (onSeg_left _ _)
        · exact h
  | cons x l ih =>
    cases l with
    | nil =>
      simp only [List.nil_append, List.cons_append, OnPath]
      constructor
      · rintro (h | h)
        · exact .inl (.inl h)
        · exact .inr h
      · rintro ((h | h) | h)
        · exact .inl h
        · subst h; exact .inl (onSeg_right _ _)
        · exact .inr h
    | cons y l =>
      simp only [List.cons_append, OnPath] at ih ⊢
      rw [ih]; tauto

theorem onPath_mem {l : List (F × F)} {p : F × F} (h : p ∈ l) : OnPath l p := by
  induction l with
  | nil => simp at h
  | cons a l ih =>
    cases l with
    | nil => simpa [OnPath] using h
    | cons b l =>
      rcases List.mem_cons.1 h with rfl | h
      · exact .inl (onSeg_left _ _)
      · exact .inr (ih h)

/-! ### one segment -/

theorem intersect_eq (ax : Axis) (a b : F × F) (v : F) (h : coord ax a ≠ coord ax b) :
    intersect ax a b v = lerp a b ((v - coord ax a) / (coord ax b - coord ax a)) := by
  have hd : coord ax b - coord ax a ≠ 0 := sub_ne_zero.2 (Ne.symm h)
  cases ax <;> simp only [coord] at h hd ⊢ <;> simp only [intersect, lerp, hd, if_false, Prod.mk.injEq]
  · refine ⟨?_, by ring⟩; field_simp; ring
  · refine ⟨by ring, ?_⟩; field_simp; ring

theorem intersect_deg (ax : Axis) (a b : F × F) (h : coord ax a = coord ax b) :
    intersect ax a b (coord ax a) = a := by
  cases ax <;> simp only [coord] at h ⊢ <;> simp only [intersect, h, sub_self, if_true] <;> rw [← h]

theorem intersect_start (ax : Axis) (a b : F × F) : intersect ax a b (coord ax a) = a := by
  by_cases h : coord ax a = coord ax b
  · exact intersect_deg ax a b h
  · rw [intersect_eq _ _ _ _ h]; simp [lerp]

theorem coord_intersect {F : Type} [Zero F] [Add F] [Sub F] [Mul F] [Div F] [LinearOrder F] (ax : Axis) (a b : F × F)
    (v : F) : coord ax (intersect ax a b v) = v := by
  cases ax <;> simp only [intersect] <;> split <;> rfl

/-- The points a segment contributes, with its end if it stays inside. -/
def segPts (ax : Axis) (k1 k2 : F) (a b : F × F) : List (F × F) :=
  entering ax k1 k2 a b ++ leaving ax k1 k2 a b ++
    (if exited ax k1 k2 a b then [] else if k1 ≤ coord ax b ∧ coord ax b ≤ k2 then [b] else [])

/-- What a segment contributes: nothing if none of it is in the slab, otherwise the ends of the part in the slab. -/
theorem segPts_key (ax : Axis) {k1 k2 : F} (hk : k1 ≤ k2) (a b : F × F) :
    (segPts ax k1 k2 a b = [] ∧ ∀ t : F, 0 ≤ t → t ≤ 1 → ¬ InSlab ax k1 k2 (lerp a b t)) ∨
      ∃ s u, s ≤ u ∧ (segPts ax k1 k2 a b = [lerp a b s, lerp a b u] ∨ (s = u ∧ segPts ax k1 k2 a b = [lerp a b s])) ∧
        ∀ t : F, (0 ≤ t ∧ t ≤ 1 ∧ InSlab ax k1 k2 (lerp a b t)) ↔ (s ≤ t ∧ t ≤ u) := by
  simp only [InSlab, coord_lerp]
  have hi : ∀ v, coord ax a ≠ coord ax b →
      intersect ax a b v = lerp a b ((v - coord ax a) / (coord ax b - coord ax a)) := fun v h => intersect_eq ax a b v h
  have hs := intersect_start ax a b
  have h0 := lerp_zero a b
  have h1 := lerp_one a b
  unfold segPts entering leaving exited
  generalize coord ax a = A at *
  generalize coord ax b = B at *
  generalize intersect ax a b = I at *
  generalize lerp a b = L at *
  rcases lt_trichotomy A B with hAB | rfl | hAB
  · have hd : 0 < B - A := sub_pos.2 hAB
    have e1 : ∀ v t : F, (v ≤ A + t * (B - A)) ↔ (v - A) / (B - A) ≤ t := by
      intro v t; rw [div_le_iff₀ hd]; constructor <;> intro h <;> linarith
    have e2 : ∀ v t : F, (A + t * (B - A) ≤ v) ↔ t ≤ (v - A) / (B - A) := by
      intro v t; rw [le_div_iff₀ hd]; constructor <;> intro h <;> linarith
    by_cases c1 : B < k1
    · left
      refine ⟨?_, ?_⟩
      · have : A ≤ k1 := by linarith
        have h2 : ¬ (k1 ≤ B) := not_le.2 c1
        have h3 : ¬ (k1 ≤ A) := by linarith
        have h4 : ¬ (k2 < B) := by linarith
        simp [this, h2, h3, h4]
      · rintro t t0 t1 ⟨t2, t3⟩; nlinarith
    by_cases c2 : k2 < A
    · left
      refine ⟨?_, ?_⟩
      · have h1 : ¬ (A ≤ k1) := by linarith
        have h2 : k2 ≤ A := c2.le
        have h3 : ¬ (B ≤ k2) := by linarith
        have h4 : ¬ (B < k1) := by linarith
        have h5 : ¬ (A ≤ k2) := by linarith
        simp [h1, h2, h3, h4, h5]
      · rintro t t0 t1 ⟨t2, t3⟩; nlinarith
    rw [not_lt] at c1 c2
    right
    -- start parameter
    obtain ⟨s, hsv, hs0, hse⟩ : ∃ s, (if A ≤ k1 then if B ≥ k1 then [I k1] else [] else if A ≥ k2 then
        if B ≤ k2 then [I k2] else [] else [a]) = (if A = k2 ∧ ¬ A ≤ k1 then [] else [L s]) ∧ 0 ≤ s ∧
        ∀ t, (0 ≤ t ∧ k1 ≤ A + t * (B - A)) ↔ s ≤ t := by
      by_cases h : A ≤ k1
      · refine ⟨(k1 - A) / (B - A), ?_, div_nonneg (by linarith) hd.le, ?_⟩
        · simp [h, c1, hi _ hAB.ne]
        · intro t; rw [e1]; constructor
          · exact fun h => h.2
          · exact fun h' => ⟨le_trans (div_nonneg (by linarith) hd.le) h', h'⟩
      · refine ⟨0, ?_, le_rfl, ?_⟩
        · by_cases h2 : A = k2
          · subst h2; simp [h, hAB]
          · have : ¬ (k2 ≤ A) := fun hh => h2 (le_antisymm c2 hh)
            simp [h, h2, this, h0]
        · intro t; constructor
          · exact fun h => h.1
          · intro ht; refine ⟨ht, ?_⟩; nlinarith
    rw [hsv]
    by_cases h2 : B ≤ k2
    · refine ⟨s, 1, ?_, ?_, ?_⟩
      · have := (hse 1).1 ⟨zero_le_one, by linarith⟩; exact this
      · left
        have h3 : ¬ (B < k1) := by linarith
        have h4 : ¬ (k2 < B) := by linarith
        have h5 : ¬ (A = k2 ∧ ¬ A ≤ k1) := by rintro ⟨rfl, _⟩; linarith
        simp only [h5, if_false]
        simp [h3, h4, c1, h2, h1]
      · intro t; rw [← hse t]
        constructor
        · rintro ⟨x, y, z, w⟩; exact ⟨⟨x, z⟩, y⟩
        · rintro ⟨⟨x, y⟩, z⟩; refine ⟨x, z, y, ?_⟩; nlinarith
    · rw [not_le] at h2
      have hu : (k2 - A) / (B - A) ≤ 1 := (div_le_one hd).2 (by linarith)
      have hu0 : 0 ≤ (k2 - A) / (B - A) := div_nonneg (by linarith) hd.le
      have hsu : s ≤ (k2 - A) / (B - A) := by
        rw [← hse]; refine ⟨hu0, ?_⟩
        have := (e2 k2 ((k2 - A) / (B - A))).2 le_rfl
        have h' := (e1 k2 ((k2 - A) / (B - A))).2 le_rfl
        linarith
      refine ⟨s, (k2 - A) / (B - A), hsu, ?_, ?_⟩
      · have h3 : ¬ (B < k1) := by linarith
        by_cases h5 : (A = k2 ∧ ¬ A ≤ k1)
        · right
          obtain ⟨rfl, h6⟩ := h5
          have : s = 0 := by
            apply le_antisymm _ hs0
            simpa using hsu
          refine ⟨by simp [this], ?_⟩
          simp [h3, h2, h6, this, hs, h0]
        · left
          simp only [h5, if_false]
          simp [h3, h2, c2, hi _ hAB.ne]
      · intro t; rw [← hse t, ← e2]
        constructor
        · rintro ⟨x, y, z, w⟩; exact ⟨⟨x, z⟩, w⟩
        · rintro ⟨⟨x, y⟩, z⟩; exact ⟨x, le_trans ((e2 _ _).1 z) hu, y, z⟩
  · by_cases c : k1 ≤ A ∧ A ≤ k2
    · right
      refine ⟨0, 1, zero_le_one, .inl ?_, by simp [c]⟩
      have h3 : ¬ (A < k1) := not_lt.2 c.1
      have h4 : ¬ (k2 < A) := not_lt.2 c.2
      rw [h0, h1]
      by_cases h5 : A ≤ k1
      · obtain rfl : A = k1 := le_antisymm h5 c.1
        simp [h4, hs, c.2]
      · by_cases h6 : k2 ≤ A
        · obtain rfl : A = k2 := le_antisymm c.2 h6
          simp [h5, h3, hs, c.1]
        · simp [h5, h6, h3, h4, c.1, c.2]
    · left
      refine ⟨?_, by intro t _ _; simpa using c⟩
      by_cases h5 : A < k1
      · have : ¬ (k1 ≤ A) := not_le.2 h5
        have h6 : ¬ (k2 < A) := by linarith
        simp [h5.le, h6, this]
      · have h6 : k2 < A := by
          by_contra h; exact c ⟨not_lt.1 h5, not_lt.1 h⟩
        have h7 : ¬ (A ≤ k1) := by linarith
        have h8 : ¬ (A ≤ k2) := by linarith
        simp [h7, h6.le, h8, h5]
  · -- decreasing
    have hd : 0 < A - B := sub_pos.2 hAB
    have e1 : ∀ v t : F, (v ≤ A + t * (B - A)) ↔ t ≤ (v - A) / (B - A) := by
      intro v t
      rw [show (v - A) / (B - A) = (A - v) / (A - B) by rw [← neg_sub A v, ← neg_sub A B, neg_div_neg_eq],
        le_div_iff₀ hd]
      constructor <;> intro h <;> linarith
    have e2 : ∀ v t : F, (A + t * (B - A) ≤ v) ↔ (v - A) / (B - A) ≤ t := by
      intro v t
      rw [show (v - A) / (B - A) = (A - v) / (A - B) by rw [← neg_sub A v, ← neg_sub A B, neg_div_neg_eq],
        div_le_iff₀ hd]
      constructor <;> intro h <;> linarith
    by_cases c1 : A < k1
    · left
      refine ⟨?_, ?_⟩
      · have h1 : A ≤ k1 := c1.le
        have h2 : ¬ (k1 ≤ B) := by linarith
        have h3 : ¬ (k1 ≤ A) := by linarith
        have h4 : ¬ (k2 < B) := by linarith
        simp [h1, h2, h3, h4]
      · rintro t t0 t1 ⟨t2, t3⟩; nlinarith
    by_cases c2 : k2 < B
    · left
      refine ⟨?_, ?_⟩
      · have h1 : ¬ (A ≤ k1) := by linarith
        have h2 : k2 ≤ A := by linarith
        have h3 : ¬ (B ≤ k2) := by linarith
        have h4 : ¬ (B < k1) := by linarith
        have h5 : ¬ (A ≤ k2) := by linarith
        simp [h1, h2, h3, h4, h5]
      · rintro t t0 t1 ⟨t2, t3⟩; nlinarith
    rw [not_lt] at c1 c2
    right
    obtain ⟨s, hsv, hs0, hse⟩ : ∃ s, (if A ≤ k1 then if B ≥ k1 then [I k1] else [] else if A ≥ k2 then
        if B ≤ k2 then [I k2] else [] else [a]) = (if A ≤ k1 then [] else [L s]) ∧ 0 ≤ s ∧
        ∀ t, (0 ≤ t ∧ A + t * (B - A) ≤ k2) ↔ s ≤ t := by
      by_cases h : A ≤ k1
      · have : ¬ (k1 ≤ B) := by linarith
        refine ⟨0, by simp [h, this], le_rfl, ?_⟩
        intro t; constructor
        · exact fun h => h.1
        · intro ht; refine ⟨ht, ?_⟩; nlinarith
      · by_cases h2 : k2 ≤ A
        · refine ⟨(k2 - A) / (B - A), ?_, div_nonneg_of_nonpos (by linarith) (by linarith), ?_⟩
          · simp [h, h2, c2, hi _ hAB.ne']
          · intro t; rw [e2]; constructor
            · exact fun h => h.2
            · exact fun h' => ⟨le_trans (div_nonneg_of_nonpos (by linarith) (by linarith)) h', h'⟩
        · refine ⟨0, by simp [h, h2, h0], le_rfl, ?_⟩
          intro t; constructor
          · exact fun h => h.1
          · intro ht; refine ⟨ht, ?_⟩; nlinarith
    rw [hsv]
    by_cases h2 : k1 ≤ B
    · refine ⟨s, 1, ?_, ?_, ?_⟩
      · exact (hse 1).1 ⟨zero_le_one, by linarith⟩
      · left
        have h3 : ¬ (B < k1) := by linarith
        have h4 : ¬ (k2 < B) := by linarith
        have h5 : ¬ (A ≤ k1) := by linarith
        simp only [h5, if_false]
        simp [h3, h4, c2, h2, h1]
      · intro t; rw [← hse t]
        constructor
        · rintro ⟨x, y, z, w⟩; exact ⟨⟨x, w⟩, y⟩
        · rintro ⟨⟨x, y⟩, z⟩; refine ⟨x, z, ?_, y⟩; nlinarith
    · rw [not_le] at h2
      have hu : (k1 - A) / (B - A) ≤ 1 := by
        rw [← e2]; linarith
      have hu0 : 0 ≤ (k1 - A) / (B - A) := div_nonneg_of_nonpos (by linarith) (by linarith)
      have hsu : s ≤ (k1 - A) / (B - A) := by
        rw [← hse]; refine ⟨hu0, ?_⟩
        have h' := (e2 k1 ((k1 - A) / (B - A))).2 le_rfl
        linarith
      refine ⟨s, (k1 - A) / (B - A), hsu, ?_, ?_⟩
      · have h4 : ¬ (k2 < B) := by linarith
        by_cases h5 : A ≤ k1
        · obtain rfl : A = k1 := le_antisymm h5 c1
          right
          have : s = 0 := by
            apply le_antisymm _ hs0
            simpa using hsu
          refine ⟨by simp [this], ?_⟩
          simp [h2, h4, this, hs, h0]
        · left
          simp only [h5, if_false]
          simp [h2, h4, c1, hi _ hAB.ne']
      · intro t; rw [← hse t, ← e1]
        constructor
        · rintro ⟨x, y, z, w⟩; exact ⟨⟨x, w⟩, z⟩
        · rintro ⟨⟨x, y⟩, z⟩; exact ⟨x, le_trans ((e1 _ _).1 z) hu, z, y⟩

theorem segPts_path (ax : Axis) {k1 k2 : F} (hk : k1 ≤ k2) (a b p : F × F) :
    OnPath (segPts ax k1 k2 a b) p ↔ OnSeg a b p ∧ InSlab ax k1 k2 p := by
  have key := segPts_key ax hk a b
  rcases key with ⟨he, hn⟩ | ⟨s, u, hsu, hf, ht⟩
  · rw [he]
    simp only [OnPath, false_iff, not_and]
    rintro ⟨t, h0, h1, rfl⟩
    exact hn t h0 h1
  · have h2 : OnPath (segPts ax k1 k2 a b) p ↔ ∃ t, s ≤ t ∧ t ≤ u ∧ p = lerp a b t := by
      rcases hf with hf | ⟨rfl, hf⟩
      · rw [hf, ← onSeg_lerp a b hsu]
        simp only [OnPath, or_iff_left_iff_imp]
        rintro rfl; exact onSeg_right _ _
      · rw [hf]
        simp only [OnPath]
        constructor
        · rintro rfl; exact ⟨s, le_rfl, le_rfl, rfl⟩
        · rintro ⟨t, h0, h1, rfl⟩; rw [le_antisymm h1 h0]
    rw [h2]
    constructor
    · rintro ⟨t, h0, h1, rfl⟩
      obtain ⟨x, y, z⟩ := (ht t).2 ⟨h0, h1⟩
      exact ⟨⟨t, x, y, rfl⟩, z⟩
    · rintro ⟨⟨t, h0, h1, rfl⟩, h⟩
      obtain ⟨x, y⟩ := (ht t).1 ⟨h0, h1, h⟩
      exact ⟨t, x, y, rfl⟩

theorem segPts_head (ax : Axis) {k1 k2 : F} (a b : F × F) (h : InSlab ax k1 k2 a) :
    ∃ r, segPts ax k1 k2 a b = a :: r := by
  obtain ⟨h1, h2⟩ := h
  have hs := intersect_start ax a b
  unfold segPts entering leaving exited
  generalize coord ax a = A at *
  generalize coord ax b = B at *
  by_cases c : A ≤ k1
  · obtain rfl : A = k1 := le_antisymm c h1
    by_cases c2 : B < A
    · have h3 : ¬ (k2 < B) := by linarith
      simp [c2, hs, h3, not_le.2 c2]
    · simp [not_lt.1 c2, hs]
  · by_cases c3 : k2 ≤ A
    · obtain rfl : A = k2 := le_antisymm h2 c3
      have hc := not_le.1 c
      by_cases c2 : B ≤ A
      · simp [c, hs, c2]
      · have : ¬ (B < k1) := fun h => c2 (le_trans h.le h1)
        simp [c, c2, hs, this, not_le.1 c2]
    · simp [c, c3]

theorem not_exited_out (ax : Axis) {k1 k2 : F} (hk : k1 ≤ k2) (a b : F × F) (h : exited ax k1 k2 a b = false)
    (hb : ¬ InSlab ax k1 k2 b) : entering ax k1 k2 a b ++ leaving ax k1 k2 a b = [] ∧ ¬ InSlab ax k1 k2 a := by
  unfold InSlab at *
  unfold entering leaving
  unfold exited at h
  generalize coord ax a = A at *
  generalize coord ax b = B at *
  simp only [Bool.or_eq_false_iff, Bool.and_eq_false_iff, decide_eq_false_iff_not, not_lt, ge_iff_le, not_le, gt_iff_lt] at h
  by_cases c : B < k1
  · have h1 : A < k1 := by rcases h.1 with h | h <;> linarith
    have h2 : ¬ (k1 ≤ B) := not_le.2 c
    have h3 : ¬ (k1 ≤ A) := not_le.2 h1
    have h4 : ¬ (k2 < B) := by linarith
    simp [h1.le, h2, h3, h4]
  · have c2 : k2 < B := by
      by_contra hh; exact hb ⟨not_lt.1 c, not_lt.1 hh⟩
    have h1 : k2 < A := by rcases h.2 with h | h <;> linarith
    have h2 : ¬ (A ≤ k1) := by linarith
    have h3 : ¬ (B ≤ k2) := not_le.2 c2
    have h4 : ¬ (A ≤ k2) := not_le.2 h1
    simp [h1.le, h2, h3, h4, c]

theorem exited_out (ax : Axis) {k1 k2 : F} (a b : F × F) (h : exited ax k1 k2 a b = true) : ¬ InSlab ax k1 k2 b := by
  unfold InSlab
  unfold exited at h
  generalize coord ax a = A at *
  generalize coord ax b = B at *
  simp only [Bool.or_eq_true, Bool.and_eq_true, decide_eq_true_eq] at h
  rintro ⟨h1, h2⟩
  rcases h with h | h <;> linarith [h.1]

theorem onPaths_append (l r : List (List (F × F))) (p : F × F) : OnPaths (l ++ r) p ↔ OnPaths l p ∨ OnPaths r p := by
  simp only [OnPaths, List.mem_append]
  constructor
  · rintro ⟨x, h | h, hx⟩
    · exact .inl ⟨x, h, hx⟩
    · exact .inr ⟨x, h, hx⟩
  · rintro (⟨x, h, hx⟩ | ⟨x, h, hx⟩)
    · exact ⟨x, .inl h, hx⟩
    · exact ⟨x, .inr h, hx⟩

theorem onPaths_single (l : List (F × F)) (p : F × F) : OnPaths [l] p ↔ OnPath l p := by simp [OnPaths]

/-- The slice in progress together with the vertex reached, if inside. -/
def cur (ax : Axis) (k1 k2 : F) (s : List (F × F)) (a : F × F) : List (F × F) :=
  if k1 ≤ coord ax a ∧ coord ax a ≤ k2 then s ++ [a] else s

theorem cur_in {ax : Axis} {k1 k2 : F} {s : List (F × F)} {a : F × F} (h : InSlab ax k1 k2 a) :
    cur ax k1 k2 s a = s ++ [a] := by unfold cur; exact if_pos h
theorem cur_out {ax : Axis} {k1 k2 : F} {s : List (F × F)} {a : F × F} (h : ¬ InSlab ax k1 k2 a) :
    cur ax k1 k2 s a = s := by unfold cur; exact if_neg h

theorem clipLoop_line (ax : Axis) {k1 k2 : F} (hk : k1 ≤ k2) (p : F × F) : ∀ (rest : List (F × F)) (a : F × F) (st : St F),
    (¬ InSlab ax k1 k2 a → st.slice = []) →
    ∃ out, clipLoop false ax k1 k2 (a :: rest) st = some out ∧
      (OnPaths out p ↔ OnPaths st.out p ∨ OnPath (cur ax k1 k2 st.slice a) p ∨ (OnPath (a :: rest) p ∧ InSlab ax k1 k2 p)) := by
  intro rest
  induction rest with
  | nil =>
    intro a st hst
    refine ⟨_, rfl, ?_⟩
    have hfin : finish false ax k1 k2 st a = if (cur ax k1 k2 st.slice a).length > 0 then
        st.out ++ [cur ax k1 k2 st.slice a] else st.out := by
      have hcr : ∀ s : List (F × F), closeRing false s = s := by
        intro s; unfold closeRing; split <;> simp
      unfold finish cur
      simp only [hcr, ge_iff_le]
    rw [hfin]
    have himp : OnPath [a] p ∧ InSlab ax k1 k2 p → OnPath (cur ax k1 k2 st.slice a) p := by
      rintro ⟨rfl, h⟩
      rw [cur_in h]; exact onPath_mem (by simp)
    split
    · rw [onPaths_append, onPaths_single]; tauto
    · rename_i h
      have : cur ax k1 k2 st.slice a = [] := by simpa using h
      rw [this] at himp ⊢
      simp only [OnPath] at himp ⊢; tauto
  | cons b rest ih =>
    intro a st hst
    have hseg := segPts_path ax hk a b p
    have hP : OnPath (st.slice ++ segPts ax k1 k2 a b) p ↔
        OnPath (cur ax k1 k2 st.slice a) p ∨ (OnSeg a b p ∧ InSlab ax k1 k2 p) := by
      by_cases ha : InSlab ax k1 k2 a
      · obtain ⟨r, hr⟩ := segPts_head ax a b ha
        rw [← hseg, hr, onPath_append]
        rw [cur_in ha]
      · rw [cur_out ha, hst ha]
        simpa [OnPath] using hseg
    simp only [clipLoop]
    cases hx : exited ax k1 k2 a b with
    | true =>
      have hb := exited_out ax a b hx
      have hs : segPts ax k1 k2 a b = entering ax k1 k2 a b ++ leaving ax k1 k2 a b := by simp [segPts, hx]
      obtain ⟨out, ho, hiff⟩ := ih b (segStep false ax k1 k2 st a b) (by intro _; simp [segStep, hx])
      refine ⟨out, ho, ?_⟩
      rw [hiff]
      have : segStep false ax k1 k2 st a b = ⟨[], st.out ++ [st.slice ++ segPts ax k1 k2 a b]⟩ := by
        simp [segStep, hx, hs]
      rw [this, onPaths_append, onPaths_single, hP]
      have hc : cur ax k1 k2 [] b = [] := cur_out hb
      simp only [hc, OnPath, false_or, or_and_right, or_assoc]
    | false =>
      have hs : st.slice ++ segPts ax k1 k2 a b =
          cur ax k1 k2 (st.slice ++ entering ax k1 k2 a b ++ leaving ax k1 k2 a b) b := by
        unfold cur segPts
        simp only [hx, Bool.false_eq_true, if_false]
        split <;> simp
      have hst' : segStep false ax k1 k2 st a b = ⟨st.slice ++ entering ax k1 k2 a b ++ leaving ax k1 k2 a b, st.out⟩ := by
        simp [segStep, hx]
      obtain ⟨out, ho, hiff⟩ := ih b (segStep false ax k1 k2 st a b) (by
        intro hb
        obtain ⟨h1, h2⟩ := not_exited_out ax hk a b hx hb
        rw [hst', List.append_assoc, h1, hst h2]; rfl)
      refine ⟨out, ho, ?_⟩
      rw [hiff, hst', ← hs, hP]
      simp only [OnPath, or_and_right, or_assoc]

/-! ### rings -/

theorem no_strict_seg (ax : Axis) {k1 k2 : F} {z h p : F × F} (hp : k1 < coord ax p ∧ coord ax p < k2)
    (hzh : coord ax z = coord ax h) (hk : coord ax h = k1 ∨ coord ax h = k2) : ¬ OnSeg z h p := by
  rintro ⟨t, _, _, rfl⟩
  rw [coord_lerp, hzh] at hp
  rcases hk with hk | hk <;> rw [hk] at hp <;> simp at hp

theorem cur_segPts (ax : Axis) {k1 k2 : F} (hk : k1 ≤ k2) (s : List (F × F)) (a b : F × F) :
    cur ax k1 k2 (s ++ entering ax k1 k2 a b ++ leaving ax k1 k2 a b) b = s ++ segPts ax k1 k2 a b := by
  cases hx : exited ax k1 k2 a b with
  | true => rw [cur_out (exited_out ax a b hx)]; simp [segPts, hx]
  | false =>
    by_cases hb : InSlab ax k1 k2 b
    · rw [cur_in hb]; unfold segPts; rw [hx]; simp [show k1 ≤ coord ax b ∧ coord ax b ≤ k2 from hb]
    · rw [cur_out hb]; unfold segPts; rw [hx]; simp [show ¬ (k1 ≤ coord ax b ∧ coord ax b ≤ k2) from hb]

theorem segPts_head_out (ax : Axis) {k1 k2 : F} (hk : k1 ≤ k2) (a b h : F × F) (r : List (F × F))
    (hs : segPts ax k1 k2 a b = h :: r) :
    (coord ax a < k1 → coord ax h = k1) ∧ (k2 < coord ax a → coord ax h = k2) := by
  have c1 := coord_intersect ax a b k1
  have c2 := coord_intersect ax a b k2
  constructor
  · intro ha
    have h1 : ¬ (k1 ≤ coord ax a) := not_le.2 ha
    by_cases hb : k1 ≤ coord ax b
    · have : ∃ r', segPts ax k1 k2 a b = intersect ax a b k1 :: r' := by
        unfold segPts entering; simp [ha.le, hb]
      obtain ⟨r', h2⟩ := this
      rw [h2] at hs; rw [← (List.cons.inj hs).1]; exact c1
    · have h3 : ¬ (k2 < coord ax b) := by rw [not_le] at hb; linarith
      unfold segPts entering leaving at hs
      simp [ha.le, hb, h1, h3] at hs
  · intro ha
    have h1 : ¬ (coord ax a ≤ k1) := by linarith
    have h4 : ¬ (coord ax a ≤ k2) := by linarith
    by_cases hb : coord ax b ≤ k2
    · have : ∃ r', segPts ax k1 k2 a b = intersect ax a b k2 :: r' := by
        unfold segPts entering; simp [ha.le, hb, h1]
      obtain ⟨r', h2⟩ := this
      rw [h2] at hs; rw [← (List.cons.inj hs).1]; exact c2
    · have h3 : ¬ (coord ax b < k1) := by rw [not_le] at hb; linarith
      unfold segPts entering leaving at hs
      simp [ha.le, hb, h1, h3, h4] at hs

/-- Where the last point of the slice is when the vertex reached is outside. -/
def LastOK (ax : Axis) (k1 k2 : F) (s : List (F × F)) (a : F × F) : Prop :=
  ∀ z, s.getLast? = some z → (coord ax a < k1 → coord ax z = k1) ∧ (k2 < coord ax a → coord ax z = k2)

theorem lastOK_step (ax : Axis) {k1 k2 : F} (hk : k1 ≤ k2) (s : List (F × F)) (a b : F × F) (h : LastOK ax k1 k2 s a) :
    LastOK ax k1 k2 (s ++ entering ax k1 k2 a b ++ leaving ax k1 k2 a b) b := by
  intro z hz
  constructor
  · intro hb
    by_cases ha : k1 ≤ coord ax a
    · have : leaving ax k1 k2 a b = [intersect ax a b k1] := by
        have h3 : ¬ (k2 < coord ax b) := by linarith
        simp [leaving, hb, ha, h3]
      rw [this] at hz
      simp at hz; rw [← hz]; exact coord_intersect ..
    · have h3 : ¬ (k2 < coord ax b) := by linarith
      have h4 : entering ax k1 k2 a b = [] := by
        rw [not_le] at ha
        simp [entering, ha.le, not_le.2 hb]
      have h5 : leaving ax k1 k2 a b = [] := by simp [leaving, ha, h3]
      rw [h4, h5] at hz
      exact (h z (by simpa using hz)).1 (not_le.1 ha)
  · intro hb
    by_cases ha : coord ax a ≤ k2
    · have : leaving ax k1 k2 a b = [intersect ax a b k2] := by
        have h3 : ¬ (coord ax b < k1) := by linarith
        simp [leaving, hb, ha, h3]
      rw [this] at hz
      simp at hz; rw [← hz]; exact coord_intersect ..
    · have h3 : ¬ (coord ax b < k1) := by linarith
      have h4 : entering ax k1 k2 a b = [] := by
        rw [not_le] at ha
        have : ¬ (coord ax a ≤ k1) := by linarith
        simp [entering, ha.le, this, not_le.2 hb]
      have h5 : leaving ax k1 k2 a b = [] := by simp [leaving, ha, h3]
      rw [h4, h5] at hz
      exact (h z (by simpa using hz)).2 (not_le.1 ha)

/-- Where the first point of the slice is, relative to the first vertex `v`. -/
def HeadOK (ax : Axis) (k1 k2 : F) (v : F × F) (s : List (F × F)) : Prop :=
  ∀ z, s.head? = some z → (InSlab ax k1 k2 v → z = v) ∧ (coord ax v < k1 → coord ax z = k1) ∧
    (k2 < coord ax v → coord ax z = k2)

/-- Before anything is added, the vertex reached is the first one or on its side. -/
def SideOK (ax : Axis) (k1 k2 : F) (v : F × F) (s : List (F × F)) (a : F × F) : Prop :=
  s = [] → a = v ∨ (coord ax a < k1 ∧ coord ax v < k1) ∨ (k2 < coord ax a ∧ k2 < coord ax v)

theorem headOK_segPts (ax : Axis) {k1 k2 : F} (hk : k1 ≤ k2) (v : F × F) (s : List (F × F)) (a b : F × F)
    (h : HeadOK ax k1 k2 v s) (hside : SideOK ax k1 k2 v s a) :
    HeadOK ax k1 k2 v (s ++ segPts ax k1 k2 a b) := by
  intro z hz
  cases s with
  | cons x s => exact h z (by simpa using hz)
  | nil =>
    simp only [List.nil_append] at hz
    obtain ⟨r, hr⟩ : ∃ r, segPts ax k1 k2 a b = z :: r := by
      cases hs : segPts ax k1 k2 a b with
      | nil => rw [hs] at hz; simp at hz
      | cons y r => rw [hs] at hz; simp at hz; exact ⟨r, by rw [hz]⟩
    obtain ⟨h1, h2⟩ := segPts_head_out ax hk a b z r hr
    rcases hside rfl with rfl | ⟨h3, h4⟩ | ⟨h3, h4⟩
    · refine ⟨?_, h1, h2⟩
      intro ha
      obtain ⟨r', hr'⟩ := segPts_head ax a b ha
      rw [hr'] at hr; exact (List.cons.inj hr).1.symm
    · refine ⟨?_, fun _ => h1 h3, ?_⟩
      · intro ha; exact absurd ha.1 (not_le.2 h4)
      · intro h5; linarith
    · refine ⟨?_, ?_, fun _ => h2 h3⟩
      · intro ha; exact absurd ha.2 (not_le.2 h4)
      · intro h5; linarith

theorem sideOK_step (ax : Axis) {k1 k2 : F} (hk : k1 ≤ k2) (v : F × F) (s : List (F × F)) (a b : F × F)
    (hside : SideOK ax k1 k2 v s a) :
    SideOK ax k1 k2 v (s ++ entering ax k1 k2 a b ++ leaving ax k1 k2 a b) b := by
  intro hnil
  have hs : s = [] := by
    cases s with
    | nil => rfl
    | cons => simp at hnil
  subst hs
  simp only [List.nil_append, List.append_eq_nil_iff] at hnil
  have hE := hnil.1
  have hL := hnil.2
  -- both ends outside on one side
  have key : (coord ax a < k1 ∧ coord ax b < k1) ∨ (k2 < coord ax a ∧ k2 < coord ax b) := by
    unfold entering at hE
    unfold leaving at hL
    simp only [List.append_eq_nil_iff] at hL
    by_cases h1 : coord ax a ≤ k1
    · by_cases h2 : coord ax b ≥ k1
      · simp [h1, h2] at hE
      · left
        rw [ge_iff_le, not_le] at h2
        refine ⟨?_, h2⟩
        by_contra h3
        rw [not_lt] at h3
        have := hL.1
        simp [h2, h3] at this
    · by_cases h2 : coord ax a ≥ k2
      · by_cases h3 : coord ax b ≤ k2
        · simp [h1, h2, h3] at hE
        · right
          rw [not_le] at h3
          refine ⟨?_, h3⟩
          by_contra h4
          rw [not_lt] at h4
          have := hL.2
          simp [h3, h4] at this
      · simp [h1, h2] at hE
  rcases hside rfl with rfl | ⟨h3, h4⟩ | ⟨h3, h4⟩
  · rcases key with h | h
    · exact .inr (.inl ⟨h.2, h.1⟩)
    · exact .inr (.inr ⟨h.2, h.1⟩)
  · rcases key with h | h
    · exact .inr (.inl ⟨h.2, h4⟩)
    · linarith [h.1]
  · rcases key with h | h
    · linarith [h.1]
    · exact .inr (.inr ⟨h.2, h4⟩)

theorem onPath_join (ax : Axis) {k1 k2 : F} {p : F × F} (hp : k1 < coord ax p ∧ coord ax p < k2) (s r : List (F × F))
    (h : ∀ z y, s.getLast? = some z → r.head? = some y → coord ax z = coord ax y ∧ (coord ax y = k1 ∨ coord ax y = k2)) :
    OnPath (s ++ r) p ↔ OnPath s p ∨ OnPath r p := by
  rcases List.eq_nil_or_concat s with rfl | ⟨s', z, rfl⟩
  · simp [OnPath]
  · cases r with
    | nil => simp [OnPath]
    | cons y r =>
      obtain ⟨h1, h2⟩ := h z y (by simp) rfl
      rw [List.concat_eq_append, List.append_assoc, List.singleton_append, onPath_append]
      simp only [OnPath]
      have := no_strict_seg ax hp h1 h2
      simp only [this, false_or]

theorem clipLoop_ring (ax : Axis) {k1 k2 : F} (hk : k1 ≤ k2) (v p : F × F) (hp : k1 < coord ax p ∧ coord ax p < k2) :
    ∀ (rest : List (F × F)) (a : F × F) (st : St F), (a :: rest).getLast? = some v →
    LastOK ax k1 k2 st.slice a → HeadOK ax k1 k2 v (cur ax k1 k2 st.slice a) → HeadOK ax k1 k2 v st.slice →
    SideOK ax k1 k2 v st.slice a → st.out = [] →
    ∃ out, clipLoop true ax k1 k2 (a :: rest) st = some out ∧
      (OnPaths out p ↔ OnPath (cur ax k1 k2 st.slice a) p ∨ OnPath (a :: rest) p) := by
  intro rest
  induction rest with
  | nil =>
    intro a st hv hl hh _ _ hout
    obtain rfl : a = v := by simpa using hv
    refine ⟨_, rfl, ?_⟩
    have hpath : OnPath [a] p → OnPath (cur ax k1 k2 st.slice a) p := by
      rintro rfl
      rw [cur_in ⟨hp.1.le, hp.2.le⟩]; exact onPath_mem (by simp)
    have hlast : ∀ z, (cur ax k1 k2 st.slice a).getLast? = some z →
        (InSlab ax k1 k2 a → z = a) ∧ (coord ax a < k1 → coord ax z = k1) ∧ (k2 < coord ax a → coord ax z = k2) := by
      intro z hz
      by_cases ha : InSlab ax k1 k2 a
      · rw [cur_in ha] at hz
        simp at hz
        exact ⟨fun _ => hz.symm, fun h => absurd ha.1 (not_le.2 h), fun h => absurd ha.2 (not_le.2 h)⟩
      · rw [cur_out ha] at hz
        exact ⟨fun h => absurd h ha, hl z hz⟩
    unfold finish
    have hc : (if coord ax a ≥ k1 ∧ coord ax a ≤ k2 then st.slice ++ [a] else st.slice) = cur ax k1 k2 st.slice a := rfl
    simp only [hc, hout, List.nil_append]
    generalize cur ax k1 k2 st.slice a = c at *
    have main : OnPath c p ∨ OnPath [a] p ↔ OnPath c p := by tauto
    rw [main]
    cases c with
    | nil => simp [OnPaths, OnPath, closeRing]
    | cons f c =>
      obtain ⟨l, hl'⟩ : ∃ l, (f :: c).getLast? = some l := ⟨_, List.getLast?_eq_some_getLast (by simp)⟩
      simp only [closeRing, List.head?_cons, hl']
      split
      · simp only [List.length_append, List.length_cons, List.length_nil]
        rw [if_pos (by omega), onPaths_single]
        rw [onPath_join ax hp (f :: c) [f]]
        · have : ¬ OnPath [f] p ∨ OnPath (f :: c) p := by
            by_cases h : OnPath [f] p
            · right; simp only [OnPath] at h; subst h; exact onPath_mem (by simp)
            · exact .inl h
          tauto
        · intro z y hz hy
          rename_i hcond
          simp only [Bool.and_eq_true, Bool.or_eq_true, bne_iff_ne, ne_eq] at hcond
          rw [hl'] at hz
          obtain rfl : l = z := by simpa using hz
          obtain rfl : f = y := by simpa using hy
          have hne : l ≠ f := by
            rintro rfl; rcases hcond.2 with h | h <;> exact h rfl
          obtain ⟨i1, i2, i3⟩ := hlast l hl'
          obtain ⟨j1, j2, j3⟩ := hh f rfl
          by_cases ha : InSlab ax k1 k2 a
          · exact absurd ((i1 ha).trans (j1 ha).symm) hne
          · by_cases h1 : coord ax a < k1
            · rw [i2 h1, j2 h1]; simp
            · have h2 : k2 < coord ax a := by
                by_contra h; exact ha ⟨not_lt.1 h1, not_lt.1 h⟩
              rw [i3 h2, j3 h2]; simp
      · rw [if_pos (by simp), onPaths_single]
  | cons b rest ih =>
    intro a st hv hl hh hh' hs hout
    simp only [clipLoop]
    have hst' : segStep true ax k1 k2 st a b = ⟨st.slice ++ entering ax k1 k2 a b ++ leaving ax k1 k2 a b, st.out⟩ := by
      simp [segStep]
    have hseg := segPts_path ax hk a b p
    have hcs := cur_segPts ax hk st.slice a b
    have hH := headOK_segPts ax hk v st.slice a b hh' hs
    obtain ⟨out, ho, hiff⟩ := ih b (segStep true ax k1 k2 st a b) (by simpa using hv)
      (by rw [hst']; exact lastOK_step ax hk _ a b hl)
      (by rw [hst', hcs]; exact hH)
      (by
        rw [hst']
        intro z hz
        apply hH z
        simp only [segPts]
        rw [← List.append_assoc, ← List.append_assoc]
        rw [List.head?_append, hz]; rfl)
      (by rw [hst']; exact sideOK_step ax hk v _ a b hs)
      (by rw [hst']; exact hout)
    refine ⟨out, ho, ?_⟩
    rw [hiff, hst', hcs]
    have hIn : InSlab ax k1 k2 p := ⟨hp.1.le, hp.2.le⟩
    have hP : OnPath (st.slice ++ segPts ax k1 k2 a b) p ↔ OnPath (cur ax k1 k2 st.slice a) p ∨ OnSeg a b p := by
      have hseg' : OnPath (segPts ax k1 k2 a b) p ↔ OnSeg a b p := by rw [hseg]; simp [hIn]
      rw [← hseg']
      by_cases ha : InSlab ax k1 k2 a
      · obtain ⟨r, hr⟩ := segPts_head ax a b ha
        rw [hr, onPath_append, cur_in ha]
      · rw [cur_out ha]
        apply onPath_join ax hp
        intro z y hz hy
        obtain ⟨r, hr⟩ : ∃ r, segPts ax k1 k2 a b = y :: r := by
          cases hq : segPts ax k1 k2 a b with
          | nil => rw [hq] at hy; simp at hy
          | cons w r => rw [hq] at hy; simp at hy; exact ⟨r, by rw [hy]⟩
        obtain ⟨h1, h2⟩ := segPts_head_out ax hk a b y r hr
        obtain ⟨h3, h4⟩ := hl z hz
        by_cases h5 : coord ax a < k1
        · rw [h1 h5, h3 h5]; simp
        · have h6 : k2 < coord ax a := by
            by_contra h; exact ha ⟨not_lt.1 h5, not_lt.1 h⟩
          rw [h2 h6, h4 h6]; simp
    rw [hP]
    simp only [OnPath, or_assoc]

end paths
end Verif.Clip
