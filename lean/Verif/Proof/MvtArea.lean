import Verif.Spec.MvtArea
import Verif.Proof.MvtClip

namespace Verif.Clip
set_option linter.unusedSectionVars false
set_option linter.unusedSimpArgs false

variable {F : Type} [Field F] [LinearOrder F] [IsStrictOrderedRing F]

theorem oth_lerp (ax : Axis) (a b : F × F) (t : F) :
    oth ax (lerp a b t) = oth ax a + t * (oth ax b - oth ax a) := by cases ax <;> rfl

/-- `meets` without division. -/
theorem meets_iff (ax : Axis) (p a b : F × F) : meets ax p a b = true ↔
    (coord ax a ≤ coord ax p ∧ coord ax p < coord ax b ∧
      (coord ax b - coord ax a) * (oth ax p - oth ax a) < (oth ax b - oth ax a) * (coord ax p - coord ax a)) ∨
    (coord ax b ≤ coord ax p ∧ coord ax p < coord ax a ∧
      (oth ax b - oth ax a) * (coord ax p - coord ax a) < (coord ax b - coord ax a) * (oth ax p - oth ax a)) := by
  unfold meets
  generalize coord ax a = A
  generalize coord ax b = B
  generalize coord ax p = P
  generalize oth ax a = a'
  generalize oth ax b = b'
  generalize oth ax p = p'
  by_cases h1 : A ≤ P
  · by_cases h2 : B ≤ P
    · simp [h1, h2, not_lt.2 h1, not_lt.2 h2]
    · have h3 := not_le.1 h2
      have hd : 0 < B - A := by linarith
      have : (p' < a' + (P - A) / (B - A) * (b' - a')) ↔ ((B - A) * (p' - a') < (b' - a') * (P - A)) := by
        rw [← sub_lt_iff_lt_add', div_mul_eq_mul_div, lt_div_iff₀ hd]
        constructor <;> intro h <;> linarith
      simp [h1, h2, h3, this]
  · have h3 := not_le.1 h1
    by_cases h2 : B ≤ P
    · have hd : 0 < A - B := by linarith
      have : (p' < a' + (P - A) / (B - A) * (b' - a')) ↔ ((b' - a') * (P - A) < (B - A) * (p' - a')) := by
        rw [← sub_lt_iff_lt_add', show (P - A) / (B - A) = (A - P) / (A - B) by rw [← neg_sub A P, ← neg_sub A B, neg_div_neg_eq],
          div_mul_eq_mul_div, lt_div_iff₀ hd]
        constructor <;> intro h <;> linarith
      simp [h1, h2, h3, this]
    · simp [h1, h2]

theorem meets_same (ax : Axis) (p a b : F × F) (h : coord ax a ≤ coord ax p ↔ coord ax b ≤ coord ax p) :
    meets ax p a b = false := by
  unfold meets; simp [h]

theorem meets_self (ax : Axis) (p a : F × F) : meets ax p a a = false := meets_same ax p a a Iff.rfl

theorem meets_symm (ax : Axis) (p a b : F × F) : meets ax p a b = meets ax p b a := by
  rw [Bool.eq_iff_iff, meets_iff, meets_iff]
  constructor
  · rintro (⟨h1, h2, h3⟩ | ⟨h1, h2, h3⟩)
    · exact .inr ⟨h1, h2, by linarith⟩
    · exact .inl ⟨h1, h2, by linarith⟩
  · rintro (⟨h1, h2, h3⟩ | ⟨h1, h2, h3⟩)
    · exact .inr ⟨h1, h2, by linarith⟩
    · exact .inl ⟨h1, h2, by linarith⟩

/-- Between two points of the segment on the same sides as its ends the ray is met as by the whole segment. -/
theorem meets_lerp (ax : Axis) (p a b : F × F) {s u : F} (hsu : s < u)
    (hs : coord ax (lerp a b s) ≤ coord ax p ↔ coord ax a ≤ coord ax p)
    (hu : coord ax (lerp a b u) ≤ coord ax p ↔ coord ax b ≤ coord ax p) :
    meets ax p (lerp a b s) (lerp a b u) = meets ax p a b := by
  rw [Bool.eq_iff_iff, meets_iff, meets_iff, hs, hu]
  have hs' : coord ax p < coord ax (lerp a b s) ↔ coord ax p < coord ax a := by rw [← not_le, hs, not_le]
  have hu' : coord ax p < coord ax (lerp a b u) ↔ coord ax p < coord ax b := by rw [← not_le, hu, not_le]
  rw [hs', hu']
  simp only [coord_lerp, oth_lerp]
  generalize coord ax a = A
  generalize coord ax b = B
  generalize coord ax p = P
  generalize oth ax a = a'
  generalize oth ax b = b'
  generalize oth ax p = p'
  have hd : 0 < u - s := sub_pos.2 hsu
  have e : ∀ x y : F, ((A + u * (B - A) - (A + s * (B - A))) * (p' - (a' + s * (b' - a'))) <
      (a' + u * (b' - a') - (a' + s * (b' - a'))) * (P - (A + s * (B - A)))) ↔ ((B - A) * (p' - a') < (b' - a') * (P - A)) := by
    intro _ _
    constructor
    · intro h
      by_contra h'
      nlinarith
    · intro h
      nlinarith
  have e' : ∀ x y : F, ((a' + u * (b' - a') - (a' + s * (b' - a'))) * (P - (A + s * (B - A))) <
      (A + u * (B - A) - (A + s * (B - A))) * (p' - (a' + s * (b' - a')))) ↔ ((b' - a') * (P - A) < (B - A) * (p' - a')) := by
    intro _ _
    constructor
    · intro h
      by_contra h'
      nlinarith
    · intro h
      nlinarith
  rw [e 0 0, e' 0 0]

omit [IsStrictOrderedRing F] in
theorem parity_append (ax : Axis) (p a : F × F) (l r : List (F × F)) :
    parity ax p (l ++ a :: r) = (parity ax p (l ++ [a]) != parity ax p (a :: r)) := by
  induction l with
  | nil => simp [parity]
  | cons x l ih =>
    cases l with
    | nil => simp [parity]
    | cons y l => simp only [List.cons_append, parity] at ih ⊢; rw [ih]; simp

theorem parity_join (ax : Axis) (p : F × F) (s r : List (F × F))
    (h : ∀ z y, s.getLast? = some z → r.head? = some y → meets ax p z y = false) :
    parity ax p (s ++ r) = (parity ax p s != parity ax p r) := by
  rcases List.eq_nil_or_concat s with rfl | ⟨s', z, rfl⟩
  · simp [parity]
  · cases r with
    | nil => simp [parity]
    | cons y r =>
      have h1 := h z y (by simp) rfl
      rw [List.concat_eq_append, List.append_assoc, List.singleton_append, parity_append]
      simp [parity, h1]

theorem segPts_parity (ax : Axis) {k1 k2 : F} (a b p : F × F) (hp : k1 < coord ax p ∧ coord ax p < k2) :
    parity ax p (segPts ax k1 k2 a b) = meets ax p a b := by
  have hk : k1 ≤ k2 := (hp.1.trans hp.2).le
  -- a segment with ends on different sides passes through the slab near `p`'s coordinate
  have side : ∀ t : F, 0 ≤ t → t ≤ 1 → (coord ax a ≤ coord ax p ↔ coord ax b ≤ coord ax p) →
      (coord ax (lerp a b t) ≤ coord ax p ↔ coord ax a ≤ coord ax p) := by
    intro t t0 t1 h
    rw [coord_lerp]
    by_cases ha : coord ax a ≤ coord ax p
    · have hb := h.1 ha
      simp only [ha, iff_true]; nlinarith
    · have hb : ¬ coord ax b ≤ coord ax p := fun hh => ha (h.2 hh)
      simp only [ha, iff_false]; rw [not_le] at ha hb ⊢
      rcases t0.eq_or_lt with rfl | t0
      · simpa using ha
      · nlinarith [mul_pos t0 (sub_pos.2 hb), mul_nonneg (sub_nonneg.2 t1) (sub_pos.2 ha).le]
  by_cases hab : coord ax a ≤ coord ax p ↔ coord ax b ≤ coord ax p
  · rw [meets_same ax p a b hab]
    rcases segPts_key ax hk a b with ⟨he, _⟩ | ⟨s, u, hsu, hf, ht⟩
    · rw [he]; rfl
    · rcases hf with hf | ⟨_, hf⟩
      · rw [hf]
        obtain ⟨s0, s1, _⟩ := (ht s).2 ⟨le_rfl, hsu⟩
        obtain ⟨u0, u1, _⟩ := (ht u).2 ⟨hsu, le_rfl⟩
        simp only [parity]
        rw [meets_same]; · rfl
        rw [side s s0 s1 hab, side u u0 u1 hab]
      · rw [hf]; rfl
  · have up : ∀ c : F × F, ∀ d : F × F, coord ax c ≤ coord ax p → coord ax p < coord ax d →
        ∃ t1 t2, 0 ≤ t1 ∧ t1 < t2 ∧ t2 ≤ 1 ∧ InSlab ax k1 k2 (lerp c d t1) ∧ InSlab ax k1 k2 (lerp c d t2) ∧
          coord ax (lerp c d t1) ≤ coord ax p ∧ coord ax p < coord ax (lerp c d t2) := by
      intro c d h1 h2
      have hd : 0 < coord ax d - coord ax c := by linarith
      have hm : coord ax p < min k2 (coord ax d) := lt_min hp.2 h2
      refine ⟨(coord ax p - coord ax c) / (coord ax d - coord ax c), (min k2 (coord ax d) - coord ax c) / (coord ax d - coord ax c),
        div_nonneg (by linarith) hd.le, (div_lt_div_iff_of_pos_right hd).2 (by linarith), (div_le_one hd).2 ?_, ?_, ?_, ?_, ?_⟩
      · linarith [min_le_right k2 (coord ax d)]
      all_goals
        simp only [InSlab, coord_lerp, div_mul_cancel₀ _ hd.ne']
      · constructor <;> linarith
      · constructor <;> linarith [min_le_left k2 (coord ax d)]
      · linarith
      · linarith
    rcases segPts_key ax hk a b with ⟨he, hn⟩ | ⟨s, u, hsu, hf, ht⟩
    · exfalso
      rcases le_or_gt (coord ax a) (coord ax p) with ha | ha
      · have hb : coord ax p < coord ax b := by
          by_contra h; exact hab ⟨fun _ => not_lt.1 h, fun _ => ha⟩
        obtain ⟨t1, t2, h0, h1, h2, h3, _⟩ := up a b ha hb
        exact hn t1 h0 (by linarith) h3
      · have hb : coord ax b ≤ coord ax p := by
          by_contra h; exact hab ⟨fun h' => absurd h' (not_le.2 ha), fun h' => absurd h' h⟩
        obtain ⟨t1, t2, h0, h1, h2, h3, _⟩ := up b a hb ha
        have e : ∀ t, lerp b a t = lerp a b (1 - t) := by intro t; simp only [lerp, Prod.mk.injEq]; constructor <;> ring
        rw [e] at h3
        exact hn (1 - t1) (by linarith) (by linarith) h3
    · have hlt : s < u ∧ (coord ax (lerp a b s) ≤ coord ax p ↔ coord ax a ≤ coord ax p) ∧
          (coord ax (lerp a b u) ≤ coord ax p ↔ coord ax b ≤ coord ax p) := by
        rcases le_or_gt (coord ax a) (coord ax p) with ha | ha
        · have hb : coord ax p < coord ax b := by
            by_contra h; exact hab ⟨fun _ => not_lt.1 h, fun _ => ha⟩
          obtain ⟨t1, t2, h0, h1, h2, h3, h4, h5, h6⟩ := up a b ha hb
          obtain ⟨g1, g2⟩ := (ht t1).1 ⟨h0, by linarith, h3⟩
          obtain ⟨g3, g4⟩ := (ht t2).1 ⟨by linarith, h2, h4⟩
          rw [coord_lerp] at h5 h6
          refine ⟨by linarith, ?_, ?_⟩
          · simp only [ha, iff_true, coord_lerp]; nlinarith
          · simp only [not_le.2 hb, iff_false, coord_lerp, not_le]; nlinarith
        · have hb : coord ax b ≤ coord ax p := by
            by_contra h; exact hab ⟨fun h' => absurd h' (not_le.2 ha), fun h' => absurd h' h⟩
          obtain ⟨t1, t2, h0, h1, h2, h3, h4, h5, h6⟩ := up b a hb ha
          have e : ∀ t, lerp b a t = lerp a b (1 - t) := by intro t; simp only [lerp, Prod.mk.injEq]; constructor <;> ring
          rw [e] at h3 h4 h5 h6
          obtain ⟨g1, g2⟩ := (ht (1 - t1)).1 ⟨by linarith, by linarith, h3⟩
          obtain ⟨g3, g4⟩ := (ht (1 - t2)).1 ⟨by linarith, by linarith, h4⟩
          rw [coord_lerp] at h5 h6
          refine ⟨by linarith, ?_, ?_⟩
          · simp only [not_le.2 ha, iff_false, coord_lerp, not_le]; nlinarith
          · simp only [hb, iff_true, coord_lerp]; nlinarith
      obtain ⟨h1, h2, h3⟩ := hlt
      rcases hf with hf | ⟨hf, _⟩
      · rw [hf]
        simp only [parity]
        rw [meets_lerp ax p a b h1 h2 h3]; simp
      · exact absurd hf h1.ne

theorem meets_border (ax : Axis) {p z y : F × F}
    (h : coord ax z = coord ax y) : meets ax p z y = false := meets_same ax p z y (by rw [h])

/-- Clipping a closed ring along one axis: the result's closed curve is met by the ray as often, modulo two. -/
theorem clipLoop_parity (ax : Axis) {k1 k2 : F} (v p : F × F) (hp : k1 < coord ax p ∧ coord ax p < k2) :
    ∀ (rest : List (F × F)) (a : F × F) (st : St F), (a :: rest).getLast? = some v →
    LastOK ax k1 k2 st.slice a → HeadOK ax k1 k2 v (cur ax k1 k2 st.slice a) → HeadOK ax k1 k2 v st.slice →
    SideOK ax k1 k2 v st.slice a → st.out = [] →
    ∃ out, clipLoop true ax k1 k2 (a :: rest) st = some out ∧
      inside ax p out = (parity ax p (cur ax k1 k2 st.slice a) != parity ax p (a :: rest)) ∧
      (∀ r ∈ out, ∀ f l, r.head? = some f → r.getLast? = some l → coord ax f = coord ax l ∧ (f = l ∨ coord ax f = k1 ∨ coord ax f = k2)) := by
  have hk : k1 ≤ k2 := (hp.1.trans hp.2).le
  intro rest
  induction rest with
  | nil =>
    intro a st hv hl hh _ _ hout
    obtain rfl : a = v := by simpa using hv
    refine ⟨_, rfl, ?_⟩
    have hlast : ∀ z, (cur ax k1 k2 st.slice a).getLast? = some z →
        (InSlab ax k1 k2 a → z = a) ∧ (coord ax a < k1 → coord ax z = k1) ∧ (k2 < coord ax a → coord ax z = k2) := by
      intro z hz
      by_cases ha : InSlab ax k1 k2 a
      · rw [cur_in ha] at hz
        simp at hz
        exact ⟨fun _ => hz.symm, fun h => absurd ha.1 (not_le.2 h), fun h => absurd ha.2 (not_le.2 h)⟩
      · rw [cur_out ha] at hz
        exact ⟨fun h => absurd h ha, hl z hz⟩
    unfold finish
    have hc : (if coord ax a ≥ k1 ∧ coord ax a ≤ k2 then st.slice ++ [a] else st.slice) = cur ax k1 k2 st.slice a := rfl
    simp only [hc, hout, List.nil_append]
    generalize cur ax k1 k2 st.slice a = c at *
    cases c with
    | nil => simp [inside, parity, closeRing]
    | cons f c =>
      obtain ⟨l, hl'⟩ : ∃ l, (f :: c).getLast? = some l := ⟨_, List.getLast?_eq_some_getLast (by simp)⟩
      have hfl : coord ax f = coord ax l ∧ (f = l ∨ coord ax f = k1 ∨ coord ax f = k2) := by
        obtain ⟨i1, i2, i3⟩ := hlast l hl'
        obtain ⟨j1, j2, j3⟩ := hh f rfl
        by_cases ha : InSlab ax k1 k2 a
        · rw [i1 ha, j1 ha]; exact ⟨rfl, .inl rfl⟩
        · by_cases h1 : coord ax a < k1
          · rw [i2 h1, j2 h1]; exact ⟨rfl, .inr (.inl rfl)⟩
          · have h2 : k2 < coord ax a := by
              by_contra h; exact ha ⟨not_lt.1 h1, not_lt.1 h⟩
            rw [i3 h2, j3 h2]; exact ⟨rfl, .inr (.inr rfl)⟩
      have hpc : parity ax p (f :: c ++ [f]) = parity ax p (f :: c) := by
        rw [parity_join]
        · simp [parity]
        · intro z y hz hy
          rw [hl'] at hz
          obtain rfl : l = z := by simpa using hz
          obtain rfl : f = y := by simpa using hy
          exact meets_border ax hfl.1.symm
      simp only [closeRing, List.head?_cons, hl']
      split
      · simp only [List.length_append, List.length_cons, List.length_nil]
        rw [if_pos (by omega)]
        constructor
        · have : parity ax p (closed (f :: c ++ [f])) = parity ax p (f :: c) := by
            show parity ax p (f :: c ++ [f] ++ [f]) = _
            rw [List.append_assoc, List.singleton_append, parity_append, hpc]
            simp [parity, meets_self]
          simp only [inside, List.foldr_cons, List.foldr_nil, this]; simp [parity]
        · intro r hr f' l' h1 h2
          simp only [List.mem_singleton] at hr
          subst hr
          rw [List.getLast?_append] at h2
          simp at h1 h2
          subst h1 h2
          exact ⟨rfl, .inl rfl⟩
      · rw [if_pos (by simp)]
        constructor
        · have : parity ax p (closed (f :: c)) = parity ax p (f :: c) := hpc
          simp only [inside, List.foldr_cons, List.foldr_nil, this]; simp [parity]
        · intro r hr f' l' h1 h2
          simp only [List.mem_singleton] at hr
          subst hr
          rw [hl'] at h2
          simp at h1 h2
          subst h1 h2
          exact hfl
  | cons b rest ih =>
    intro a st hv hl hh hh' hs hout
    simp only [clipLoop]
    have hst' : segStep true ax k1 k2 st a b = ⟨st.slice ++ entering ax k1 k2 a b ++ leaving ax k1 k2 a b, st.out⟩ := by
      simp [segStep]
    have hcs := cur_segPts ax hk st.slice a b
    have hH := headOK_segPts ax hk v st.slice a b hh' hs
    obtain ⟨out, ho, hiff, hends⟩ := ih b (segStep true ax k1 k2 st a b) (by simpa using hv)
      (by rw [hst']; exact lastOK_step ax hk _ a b hl)
      (by rw [hst', hcs]; exact hH)
      (by
        rw [hst']
        intro z hz
        apply hH z
        simp only [segPts]
        rw [← List.append_assoc, ← List.append_assoc]
        rw [List.head?_append, hz]; rfl)
      (by rw [hst']; exact sideOK_step ax hk v _ a b hs)
      (by rw [hst']; exact hout)
    refine ⟨out, ho, ?_, hends⟩
    rw [hiff, hst', hcs]
    have hP : parity ax p (st.slice ++ segPts ax k1 k2 a b) = (parity ax p (cur ax k1 k2 st.slice a) != meets ax p a b) := by
      rw [← segPts_parity ax a b p hp]
      by_cases ha : InSlab ax k1 k2 a
      · obtain ⟨r, hr⟩ := segPts_head ax a b ha
        rw [hr, parity_append, cur_in ha]
      · rw [cur_out ha]
        apply parity_join
        intro z y hz hy
        obtain ⟨r, hr⟩ : ∃ r, segPts ax k1 k2 a b = y :: r := by
          cases hq : segPts ax k1 k2 a b with
          | nil => rw [hq] at hy; simp at hy
          | cons w r => rw [hq] at hy; simp at hy; exact ⟨r, by rw [hy]⟩
        obtain ⟨h1, h2⟩ := segPts_head_out ax hk a b y r hr
        obtain ⟨h3, h4⟩ := hl z hz
        apply meets_border ax
        by_cases h5 : coord ax a < k1
        · rw [h1 h5, h3 h5]
        · have h6 : k2 < coord ax a := by
            by_contra h; exact ha ⟨not_lt.1 h5, not_lt.1 h⟩
          rw [h2 h6, h4 h6]
    rw [hP]
    simp [parity]

/-! ### the two rays -/

/-- Beyond `p` in both coordinates. -/
def NE (p q : F × F) : Bool := decide (p.1 < q.1) && decide (p.2 < q.2)

theorem onSeg_swap' {a b p : F × F} (h : OnSeg a b p) : OnSeg b a p := by
  obtain ⟨t, h0, h1, rfl⟩ := h
  refine ⟨1 - t, by linarith, by linarith, ?_⟩
  simp only [lerp, Prod.mk.injEq]; constructor <;> ring

theorem meets_xy (p a b : F × F) (h : ¬ OnSeg a b p) :
    (meets .x p a b != meets .y p a b) = (NE p a != NE p b) := by
  obtain ⟨D, hD⟩ : ∃ D, D = (b.1 - p.1) * (p.2 - a.2) + (p.1 - a.1) * (p.2 - b.2) := ⟨_, rfl⟩
  have e1 : ((b.1 - a.1) * (p.2 - a.2) < (b.2 - a.2) * (p.1 - a.1)) ↔ D < 0 := by
    rw [hD]; constructor <;> intro h <;> nlinarith
  have e2 : ((b.2 - a.2) * (p.1 - a.1) < (b.1 - a.1) * (p.2 - a.2)) ↔ 0 < D := by
    rw [hD]; constructor <;> intro h <;> nlinarith
  have hx := meets_iff .x p a b
  have hy := meets_iff .y p a b
  simp only [coord, oth] at hx hy
  rw [e1, e2] at hx
  rw [e1, e2] at hy
  have on : ∀ c d : F × F, c.1 ≤ p.1 → c.2 ≤ p.2 → p.1 < d.1 → p.2 < d.2 →
      (d.1 - p.1) * (p.2 - c.2) + (p.1 - c.1) * (p.2 - d.2) = 0 → OnSeg c d p := by
    intro c d h1 h2 h3 h4 h0
    have hd : 0 < d.1 - c.1 := by linarith
    refine ⟨(p.1 - c.1) / (d.1 - c.1), div_nonneg (by linarith) hd.le, (div_le_one hd).2 (by linarith), ?_⟩
    ext
    · simp only [lerp]; field_simp; ring
    · simp only [lerp]
      have : (p.1 - c.1) / (d.1 - c.1) * (d.2 - c.2) = p.2 - c.2 := by
        rw [div_mul_eq_mul_div, div_eq_iff hd.ne']; linarith
      rw [this]; ring
  have on1 := on a b
  have on2 := fun h1 h2 h3 h4 h0 => onSeg_swap' (on b a h1 h2 h3 h4 h0)
  have s1 : a.1 ≤ p.1 → p.1 < b.1 → p.2 < a.2 → p.2 < b.2 → D < 0 := by
    intro h1 h2 h3 h4; nlinarith [mul_pos (sub_pos.2 h2) (sub_pos.2 h3), mul_nonneg (sub_nonneg.2 h1) (sub_pos.2 h4).le]
  have s2 : b.1 ≤ p.1 → p.1 < a.1 → p.2 < a.2 → p.2 < b.2 → 0 < D := by
    intro h1 h2 h3 h4; nlinarith [mul_nonneg (sub_nonneg.2 h1) (sub_pos.2 h3).le, mul_pos (sub_pos.2 h2) (sub_pos.2 h4)]
  have s3 : a.1 ≤ p.1 → p.1 < b.1 → a.2 ≤ p.2 → b.2 ≤ p.2 → 0 ≤ D := by
    intro h1 h2 h3 h4; nlinarith [mul_nonneg (sub_pos.2 h2).le (sub_nonneg.2 h3), mul_nonneg (sub_nonneg.2 h1) (sub_nonneg.2 h4)]
  have s4 : b.1 ≤ p.1 → p.1 < a.1 → a.2 ≤ p.2 → b.2 ≤ p.2 → D ≤ 0 := by
    intro h1 h2 h3 h4; nlinarith [mul_nonneg (sub_nonneg.2 h1) (sub_nonneg.2 h3), mul_nonneg (sub_pos.2 h2).le (sub_nonneg.2 h4)]
  have t1 : a.2 ≤ p.2 → p.2 < b.2 → p.1 < a.1 → p.1 < b.1 → 0 < D := by
    intro h1 h2 h3 h4; nlinarith [mul_nonneg (sub_nonneg.2 h1) (sub_pos.2 h4).le, mul_pos (sub_pos.2 h2) (sub_pos.2 h3)]
  have t2 : b.2 ≤ p.2 → p.2 < a.2 → p.1 < a.1 → p.1 < b.1 → D < 0 := by
    intro h1 h2 h3 h4; nlinarith [mul_pos (sub_pos.2 h2) (sub_pos.2 h4), mul_nonneg (sub_nonneg.2 h1) (sub_pos.2 h3).le]
  have t3 : a.2 ≤ p.2 → p.2 < b.2 → a.1 ≤ p.1 → b.1 ≤ p.1 → D ≤ 0 := by
    intro h1 h2 h3 h4; nlinarith [mul_nonneg (sub_nonneg.2 h1) (sub_nonneg.2 h4), mul_nonneg (sub_pos.2 h2).le (sub_nonneg.2 h3)]
  have t4 : b.2 ≤ p.2 → p.2 < a.2 → a.1 ≤ p.1 → b.1 ≤ p.1 → 0 ≤ D := by
    intro h1 h2 h3 h4; nlinarith [mul_nonneg (sub_pos.2 h2).le (sub_nonneg.2 h4), mul_nonneg (sub_nonneg.2 h1) (sub_nonneg.2 h3)]
  have z1 : a.1 ≤ p.1 → a.2 ≤ p.2 → p.1 < b.1 → p.2 < b.2 → D ≠ 0 := fun h1 h2 h3 h4 h0 => h (on1 h1 h2 h3 h4 (by rw [← hD, h0]))
  have z2 : b.1 ≤ p.1 → b.2 ≤ p.2 → p.1 < a.1 → p.2 < a.2 → D ≠ 0 := fun h1 h2 h3 h4 h0 =>
    h (on2 h1 h2 h3 h4 (by rw [hD] at h0; linarith))
  have hN : ∀ q : F × F, NE p q = (!decide (q.1 ≤ p.1) && !decide (q.2 ≤ p.2)) := by
    intro q; simp only [NE, ← not_le, decide_not]
  rw [hN, hN]
  clear hD e1 e2 h on on1 on2 hN
  have n1 : p.1 < a.1 ↔ ¬ a.1 ≤ p.1 := not_le.symm
  have n2 : p.2 < a.2 ↔ ¬ a.2 ≤ p.2 := not_le.symm
  have n3 : p.1 < b.1 ↔ ¬ b.1 ≤ p.1 := not_le.symm
  have n4 : p.2 < b.2 ↔ ¬ b.2 ≤ p.2 := not_le.symm
  simp only [n1, n2, n3, n4] at *
  generalize meets .x p a b = X at *
  generalize meets .y p a b = Y at *
  by_cases q1 : a.1 ≤ p.1 <;> by_cases q2 : a.2 ≤ p.2 <;> by_cases q3 : b.1 ≤ p.1 <;> by_cases q4 : b.2 ≤ p.2 <;>
    simp only [q1, q2, q3, q4, true_and, false_and, and_true, and_false, or_false, false_or, not_false_eq_true, not_true_eq_false,
      forall_const, false_imp_iff, true_imp_iff, iff_false, Bool.not_eq_true, decide_true, decide_false, or_self] at * <;>
    rcases lt_trichotomy D 0 with d | d | d <;>
    first
    | (exfalso; linarith)
    | (exfalso; exact absurd d ‹_›)
    | (simp only [d, d.le, not_lt.2 d.le, lt_irrefl, iff_true, iff_false, Bool.not_eq_true] at hx hy; subst hx hy; rfl)
    | (subst hx hy; rfl)

theorem parity_xy (p : F × F) : ∀ (r : List (F × F)) (a : F × F), ¬ OnPath (a :: r) p → ∀ l, (a :: r).getLast? = some l →
    (parity .x p (a :: r) != parity .y p (a :: r)) = (NE p a != NE p l) := by
  intro r
  induction r with
  | nil => intro a _ l hl; simp at hl; subst hl; simp [parity]
  | cons b r ih =>
    intro a h l hl
    simp only [OnPath, not_or] at h
    have h1 := meets_xy p a b h.1
    have h2 := ih b h.2 l (by simpa using hl)
    simp only [parity]
    generalize meets .x p a b = m1 at *
    generalize meets .y p a b = m2 at *
    generalize parity .x p (b :: r) = m3 at *
    generalize parity .y p (b :: r) = m4 at *
    generalize NE p a = n1 at *
    generalize NE p b = n2 at *
    generalize NE p l = n3 at *
    revert h1 h2
    cases m1 <;> cases m2 <;> cases m3 <;> cases m4 <;> cases n1 <;> cases n2 <;> cases n3 <;> simp

theorem closed_last (f : F × F) (r : List (F × F)) : (closed (f :: r)).getLast? = some f := by
  simp only [closed]; rw [List.getLast?_append]; simp

/-- Away from its edges, both rays give the same inside. -/
theorem parity_closed_xy (p : F × F) (r : List (F × F)) (h : ¬ OnPath (closed r) p) :
    parity .x p (closed r) = parity .y p (closed r) := by
  cases r with
  | nil => rfl
  | cons f r =>
    have := parity_xy p (r ++ [f]) f h f (closed_last f r)
    simpa [closed] using this

theorem inside_xy (p : F × F) (rings : List (List (F × F))) (h : ∀ r ∈ rings, ¬ OnPath (closed r) p) :
    inside .x p rings = inside .y p rings := by
  induction rings with
  | nil => rfl
  | cons r rings ih =>
    simp only [inside, List.foldr_cons] at ih ⊢
    rw [parity_closed_xy p r (h r (by simp)), ih (fun r hr => h r (by simp [hr]))]

/-! ### snapping the end of a ring to its start -/

theorem wedge (ax : Axis) (p w a b : F × F) (h1 : ¬ (coord ax w ≤ coord ax p ↔ coord ax a ≤ coord ax p))
    (h2 : coord ax a ≤ coord ax p ↔ coord ax b ≤ coord ax p) (h : meets ax p w a ≠ meets ax p w b) :
    ∃ β γ : F, 0 ≤ β ∧ 0 ≤ γ ∧ β + γ ≤ 1 ∧ coord ax p = coord ax w + β * (coord ax a - coord ax w) + γ * (coord ax b - coord ax w) ∧
      oth ax p = oth ax w + β * (oth ax a - oth ax w) + γ * (oth ax b - oth ax w) := by
  have hm : ∀ c : F × F, ¬ (coord ax w ≤ coord ax p ↔ coord ax c ≤ coord ax p) → ∃ t, 0 ≤ t ∧ t ≤ 1 ∧
      coord ax p = coord ax w + t * (coord ax c - coord ax w) ∧
      meets ax p w c = decide (oth ax p < oth ax w + t * (oth ax c - oth ax w)) := by
    intro c hc
    refine ⟨(coord ax p - coord ax w) / (coord ax c - coord ax w), ?_, ?_, ?_, ?_⟩
    · rcases le_or_gt (coord ax w) (coord ax p) with h | h
      · have : coord ax p < coord ax c := by by_contra h'; exact hc ⟨fun _ => not_lt.1 h', fun _ => h⟩
        exact div_nonneg (by linarith) (by linarith)
      · have : coord ax c ≤ coord ax p := by by_contra h'; exact hc ⟨fun h'' => absurd h'' (not_le.2 h), fun h'' => absurd h'' h'⟩
        exact div_nonneg_of_nonpos (by linarith) (by linarith)
    · rcases le_or_gt (coord ax w) (coord ax p) with h | h
      · have : coord ax p < coord ax c := by by_contra h'; exact hc ⟨fun _ => not_lt.1 h', fun _ => h⟩
        exact (div_le_one (by linarith)).2 (by linarith)
      · have : coord ax c ≤ coord ax p := by by_contra h'; exact hc ⟨fun h'' => absurd h'' (not_le.2 h), fun h'' => absurd h'' h'⟩
        exact (div_le_one_of_neg (by linarith)).2 (by linarith)
    · have : coord ax c - coord ax w ≠ 0 := by
        intro h0
        apply hc
        rw [sub_eq_zero.1 h0]
      field_simp; ring
    · unfold meets
      have : (decide (coord ax w ≤ coord ax p) != decide (coord ax c ≤ coord ax p)) = true := by
        simpa using hc
      rw [this, Bool.true_and]
  obtain ⟨t1, a0, a1, ac, am⟩ := hm a h1
  obtain ⟨t2, b0, b1, bc, bm⟩ := hm b (by rw [← h2]; exact h1)
  rw [am, bm] at h
  obtain ⟨x, hx⟩ : ∃ x, x = oth ax w + t1 * (oth ax a - oth ax w) := ⟨_, rfl⟩
  obtain ⟨y, hy⟩ : ∃ y, y = oth ax w + t2 * (oth ax b - oth ax w) := ⟨_, rfl⟩
  rw [← hx, ← hy] at h
  have hne : y - x ≠ 0 := by
    intro h0
    rw [sub_eq_zero.1 h0] at h
    exact h rfl
  have hμ : 0 ≤ (oth ax p - x) / (y - x) ∧ (oth ax p - x) / (y - x) ≤ 1 := by
    by_cases h3 : oth ax p < x
    · have h4 : ¬ oth ax p < y := by
        intro h4; simp [h3, h4] at h
      rw [not_lt] at h4
      exact ⟨div_nonneg_of_nonpos (by linarith) (by linarith), (div_le_one_of_neg (by linarith)).2 (by linarith)⟩
    · have h4 : oth ax p < y := by
        by_contra h4; simp [h3, h4] at h
      rw [not_lt] at h3
      exact ⟨div_nonneg (by linarith) (by linarith), (div_le_one (by linarith)).2 (by linarith)⟩
  obtain ⟨μ, hμd⟩ : ∃ μ, μ = (oth ax p - x) / (y - x) := ⟨_, rfl⟩
  rw [← hμd] at hμ
  have hp : oth ax p = x + μ * (y - x) := by rw [hμd]; field_simp; ring
  refine ⟨(1 - μ) * t1, μ * t2, mul_nonneg (by linarith [hμ.2]) a0, mul_nonneg hμ.1 b0, ?_, ?_, ?_⟩
  · nlinarith [mul_nonneg hμ.1 (sub_nonneg.2 b1), mul_nonneg (sub_nonneg.2 hμ.2) (sub_nonneg.2 a1)]
  · have e1 : t1 * (coord ax a - coord ax w) = coord ax p - coord ax w := by linarith
    have e2 : t2 * (coord ax b - coord ax w) = coord ax p - coord ax w := by linarith
    rw [mul_assoc, mul_assoc, e1, e2]; ring
  · rw [hp, hx, hy]; ring

/-- A point where going round the triangle `z l f` meets the ray an odd number of times lies in the triangle: it is reached from a
point of the side `z l` by part of the way from `l` to `f`. -/
theorem triangle (ax : Axis) (p z l f : F × F) (h : meets ax p z f ≠ (meets ax p z l != meets ax p l f)) :
    ∃ t γ : F, 0 ≤ t ∧ t ≤ 1 ∧ 0 ≤ γ ∧ γ ≤ 1 ∧ p.1 = (lerp z l t).1 + γ * (f.1 - l.1) ∧ p.2 = (lerp z l t).2 + γ * (f.2 - l.2) := by
  have comp : ∀ t γ : F, coord ax p = coord ax (lerp z l t) + γ * (coord ax f - coord ax l) →
      oth ax p = oth ax (lerp z l t) + γ * (oth ax f - oth ax l) →
      p.1 = (lerp z l t).1 + γ * (f.1 - l.1) ∧ p.2 = (lerp z l t).2 + γ * (f.2 - l.2) := by
    intro t γ h1 h2
    cases ax <;> simp only [coord, oth] at h1 h2
    · exact ⟨h1, h2⟩
    · exact ⟨h2, h1⟩
  by_cases c1 : coord ax z ≤ coord ax p ↔ coord ax l ≤ coord ax p
  · by_cases c2 : coord ax l ≤ coord ax p ↔ coord ax f ≤ coord ax p
    · rw [meets_same ax p z f (c1.trans c2), meets_same ax p z l c1, meets_same ax p l f c2] at h
      exact absurd rfl h
    · -- f alone
      obtain ⟨β, γ, h1, h2, h3, h4, h5⟩ := wedge ax p f z l (by rw [c1]; exact fun h => c2 h.symm) c1 (by
        rw [meets_same ax p z l c1] at h
        rw [meets_symm ax p f z, meets_symm ax p f l]; simpa using h)
      refine ⟨1 - β, 1 - β - γ, by linarith, by linarith, by linarith, by linarith, ?_⟩
      apply comp
      · rw [h4, coord_lerp]; ring
      · rw [h5, oth_lerp]; ring
  · by_cases c2 : coord ax l ≤ coord ax p ↔ coord ax f ≤ coord ax p
    · -- z alone
      obtain ⟨β, γ, h1, h2, h3, h4, h5⟩ := wedge ax p z l f c1 c2 (by
        rw [meets_same ax p l f c2] at h
        intro e; rw [e] at h; simp at h)
      refine ⟨β + γ, γ, by linarith, by linarith, by linarith, by linarith, ?_⟩
      apply comp
      · rw [h4, coord_lerp]; ring
      · rw [h5, oth_lerp]; ring
    · -- l alone
      have c3 : coord ax z ≤ coord ax p ↔ coord ax f ≤ coord ax p := by tauto
      obtain ⟨β, γ, h1, h2, h3, h4, h5⟩ := wedge ax p l z f (fun h => c1 h.symm) c3 (by
        rw [meets_same ax p z f c3, meets_symm ax p z l] at h
        intro e; rw [e] at h; simp at h)
      refine ⟨1 - β, γ, by linarith, by linarith, by linarith, by linarith, ?_⟩
      apply comp
      · rw [h4, coord_lerp]; ring
      · rw [h5, oth_lerp]; ring

theorem goAbs_eq (d : F) : goAbs d = |d| := by
  unfold goAbs
  split
  · rename_i h; rw [abs_of_neg h]; ring
  · rename_i h; rw [abs_of_nonneg (not_lt.1 h)]

theorem onPath_closed {r : List (F × F)} {q : F × F} (h : OnPath r q) : OnPath (closed r) q := by
  cases r with
  | nil => exact h
  | cons f r =>
    simp only [closed]
    rcases List.eq_nil_or_concat (f :: r) with e | ⟨r', z, e⟩
    · simp at e
    · rw [e] at h ⊢
      rw [List.concat_eq_append] at h ⊢
      rw [List.append_assoc, List.singleton_append, onPath_append]
      exact .inl h

/-- Repeating the first point of a closed ring adds nothing. -/
theorem closed_of_closed (r : List (F × F)) (f : F × F) (h1 : r.head? = some f) (h2 : r.getLast? = some f) (ax : Axis) (p : F × F) :
    parity ax p (closed r) = parity ax p r ∧ ∀ q, OnPath (closed r) q ↔ OnPath r q := by
  rcases List.eq_nil_or_concat r with rfl | ⟨r', z, rfl⟩
  · simp at h1
  · rw [List.concat_eq_append] at h1 h2 ⊢
    obtain rfl : z = f := by simpa using h2
    have hc : closed (r' ++ [z]) = r' ++ z :: [z] := by
      cases hr : r' ++ [z] with
      | nil => simp at hr
      | cons a t =>
        rw [hr] at h1
        simp at h1
        subst h1
        simp only [closed]
        rw [← hr]; simp
    constructor
    · rw [hc, parity_append]; simp [parity, meets_self]
    · intro q
      rw [hc, onPath_append]
      simp only [OnPath, onSeg_self]
      constructor
      · rintro (h | h | h)
        · exact h
        · subst h; exact onPath_mem (by simp)
        · subst h; exact onPath_mem (by simp)
      · exact .inl

/-- `lintRing`: the result is exactly closed, has the same inside for points away from the ring, and stays away from them. -/
theorem lintRing_area (p7 : F) (hp7 : 0 ≤ p7) (m : F) (hm : 0 ≤ m) (r : List (F × F)) (hr : r ≠ []) (p : F × F)
    (hfar : ∀ q, OnPath (closed r) q → ¬ Near (m + p7) p q) :
    ∃ s, lintRing p7 r = some s ∧ s ≠ [] ∧ s.head? = s.getLast? ∧ (∀ ax, parity ax p (closed s) = parity ax p (closed r)) ∧
      ∀ q, OnPath (closed s) q → ¬ Near m p q := by
  cases r with
  | nil => exact absurd rfl hr
  | cons f r =>
    obtain ⟨l, hl⟩ : ∃ l, (f :: r).getLast? = some l := ⟨_, List.getLast?_eq_some_getLast (by simp)⟩
    simp only [lintRing, List.head?_cons, hl]
    refine ⟨_, rfl, ?_⟩
    cases hd : deltaFirstLast p7 f l with
    | true =>
      rw [if_pos rfl]
      have e1 : (f :: r ++ [f]).head? = some f := rfl
      have e2 : (f :: r ++ [f]).getLast? = some f := by rw [List.getLast?_append]; simp
      refine ⟨by simp, by rw [e1, e2], fun ax => (closed_of_closed _ f e1 e2 ax p).1, ?_⟩
      intro q hq hn
      rw [(closed_of_closed _ f e1 e2 .x p).2 q] at hq
      refine hfar q hq ⟨hn.1.trans ?_, hn.2.trans ?_⟩ <;> linarith
    | false =>
      simp only [Bool.false_eq_true, if_false]
      have hab : |f.1 - l.1| ≤ p7 ∧ |f.2 - l.2| ≤ p7 := by
        simpa [deltaFirstLast, goAbs_eq] using hd
      rcases List.eq_nil_or_concat r with rfl | ⟨r', l', rfl⟩
      · simp only [List.dropLast_singleton, List.nil_append]
        refine ⟨by simp, by simp, fun ax => trivial, ?_⟩
        intro q hq hn
        refine hfar q hq ⟨hn.1.trans ?_, hn.2.trans ?_⟩ <;> linarith
      · rw [List.concat_eq_append] at hl hfar ⊢
        obtain rfl : l' = l := by
          rw [← List.cons_append, List.getLast?_append] at hl
          simpa using hl
        have hdl : (f :: (r' ++ [l'])).dropLast = f :: r' := by
          rw [← List.cons_append, List.dropLast_concat]
        rw [hdl]
        obtain ⟨m', z, hmz⟩ : ∃ m' z, f :: r' = m' ++ [z] := by
          rcases List.eq_nil_or_concat (f :: r') with e | ⟨a, b, e⟩
          · simp at e
          · exact ⟨a, b, by rw [e, List.concat_eq_append]⟩
        have hcl : closed (f :: (r' ++ [l'])) = m' ++ z :: [l', f] := by
          simp only [closed]
          rw [List.cons_append, List.append_assoc, ← List.cons_append, hmz]; simp
        have hs : f :: r' ++ [f] = m' ++ z :: [f] := by rw [hmz]; simp
        have e1 : (f :: r' ++ [f]).head? = some f := rfl
        have e2 : (f :: r' ++ [f]).getLast? = some f := by rw [List.getLast?_append]; simp
        have small : ∀ γ : F, 0 ≤ γ → γ ≤ 1 → |γ * (f.1 - l'.1)| ≤ p7 ∧ |γ * (f.2 - l'.2)| ≤ p7 := by
          intro γ g0 g1
          rw [abs_mul, abs_mul, abs_of_nonneg g0]
          constructor
          · nlinarith [hab.1, abs_nonneg (f.1 - l'.1)]
          · nlinarith [hab.2, abs_nonneg (f.2 - l'.2)]
        have onzl : ∀ t : F, 0 ≤ t → t ≤ 1 → OnPath (closed (f :: (r' ++ [l']))) (lerp z l' t) := by
          intro t t0 t1
          rw [hcl, onPath_append]
          exact .inr (.inl ⟨t, t0, t1, rfl⟩)
        refine ⟨by simp, by rw [e1, e2], ?_, ?_⟩
        · intro ax
          rw [(closed_of_closed _ f e1 e2 ax p).1, hs, hcl, parity_append, parity_append ax p z m' [l', f]]
          congr 1
          simp only [parity]
          by_contra hne
          obtain ⟨t, γ, t0, t1, g0, g1, p1, p2⟩ := triangle ax p z l' f (by simpa using hne)
          obtain ⟨s1, s2⟩ := small γ g0 g1
          refine hfar _ (onzl t t0 t1) ⟨?_, ?_⟩
          · have : (lerp z l' t).1 - p.1 = -(γ * (f.1 - l'.1)) := by rw [p1]; ring
            rw [this, abs_neg]; linarith
          · have : (lerp z l' t).2 - p.2 = -(γ * (f.2 - l'.2)) := by rw [p2]; ring
            rw [this, abs_neg]; linarith
        · intro q hq hn
          rw [(closed_of_closed _ f e1 e2 .x p).2 q, hs, onPath_append] at hq
          rcases hq with hq | hq | hq
          · refine hfar q ?_ ⟨hn.1.trans ?_, hn.2.trans ?_⟩
            · rw [hcl, onPath_append]; exact .inl hq
            · linarith
            · linarith
          · obtain ⟨t, t0, t1, rfl⟩ := hq
            obtain ⟨s1, s2⟩ := small t t0 t1
            obtain ⟨n1, n2⟩ := hn
            refine hfar _ (onzl t t0 t1) ⟨?_, ?_⟩
            · have : (lerp z l' t).1 - p.1 = ((lerp z f t).1 - p.1) - t * (f.1 - l'.1) := by simp only [lerp]; ring
              rw [this]; exact (abs_sub _ _).trans (add_le_add n1 s1)
            · have : (lerp z l' t).2 - p.2 = ((lerp z f t).2 - p.2) - t * (f.2 - l'.2) := by simp only [lerp]; ring
              rw [this]; exact (abs_sub _ _).trans (add_le_add n2 s2)
          · have hq : q = f := hq
            subst hq
            refine hfar q ?_ ⟨hn.1.trans ?_, hn.2.trans ?_⟩
            · exact onPath_mem (by simp [closed])
            · linarith
            · linarith

theorem clipLine_area (ax : Axis) {k1 k2 m : F} (hm : 0 ≤ m) (p : F × F) (hp : DeepIn ax k1 k2 m p) (s : List (F × F)) (hs : s ≠ [])
    (hc : s.head? = s.getLast?) (hfar : ∀ q, OnPath (closed s) q → ¬ Near m p q) :
    ∃ out, clipLine s k1 k2 ax true = some out ∧ inside ax p out = parity ax p (closed s) ∧ FarFrom m out p := by
  cases s with
  | nil => exact absurd rfl hs
  | cons a rest =>
    have hv : (a :: rest).getLast? = some a := by rw [← hc]; rfl
    have hk : k1 ≤ k2 := by obtain ⟨h1, h2⟩ := hp; linarith
    have H1 : HeadOK ax k1 k2 a (cur ax k1 k2 [] a) := by
      intro z hz
      by_cases ha : InSlab ax k1 k2 a
      · rw [cur_in ha] at hz
        simp at hz; subst hz
        exact ⟨fun _ => rfl, fun h => absurd ha.1 (not_le.2 h), fun h => absurd ha.2 (not_le.2 h)⟩
      · rw [cur_out ha] at hz; simp at hz
    have H2 : HeadOK ax k1 k2 a ([] : List (F × F)) := by intro z hz; simp at hz
    have H3 : LastOK ax k1 k2 ([] : List (F × F)) a := by intro z hz; simp at hz
    have H4 : SideOK ax k1 k2 a ([] : List (F × F)) a := fun _ => .inl rfl
    have hcc := closed_of_closed (a :: rest) a rfl hv
    obtain ⟨out, ho, hpar, hends⟩ := clipLoop_parity ax a p (by obtain ⟨h1, h2⟩ := hp; constructor <;> linarith) rest a ⟨[], []⟩ hv H3 H1 H2 H4 rfl
    refine ⟨out, ho, ?_, ?_⟩
    · rw [hpar, (hcc ax p).1]
      by_cases ha : InSlab ax k1 k2 a
      · simp [cur_in ha, parity]
      · simp [cur_out ha, parity]
    · intro r hr q hq hn
      have hq' : k1 < coord ax q ∧ coord ax q < k2 := by
        obtain ⟨n1, n2⟩ := hn
        obtain ⟨h1, h2⟩ := hp
        rw [abs_le] at n1 n2
        cases ax <;> simp only [coord] at h1 h2 ⊢ <;> constructor <;> linarith [n1.1, n1.2, n2.1, n2.2]
      obtain ⟨out', ho', hiff⟩ := clipLoop_ring ax hk a q hq' rest a ⟨[], []⟩ hv H3 H1 H2 H4 rfl
      rw [ho] at ho'
      obtain rfl : out = out' := by simpa using ho'
      have hon : OnPath r q → False := by
        intro h
        have h1 : OnPaths out q := ⟨r, hr, h⟩
        rw [hiff] at h1
        apply hfar q _ hn
        rw [(hcc ax p).2]
        rcases h1 with h1 | h1
        · by_cases ha : InSlab ax k1 k2 a
          · rw [cur_in ha] at h1
            have : q = a := h1
            subst this
            exact onPath_mem (by simp)
          · rw [cur_out ha] at h1; exact absurd h1 (by simp [OnPath])
        · exact h1
      cases r with
      | nil => exact hq
      | cons f r =>
        obtain ⟨l, hl⟩ : ∃ l, (f :: r).getLast? = some l := ⟨_, List.getLast?_eq_some_getLast (by simp)⟩
        obtain ⟨e1, e2⟩ := hends (f :: r) hr f l rfl hl
        rcases List.eq_nil_or_concat (f :: r) with e | ⟨r', z, e⟩
        · simp at e
        · rw [List.concat_eq_append] at e
          simp only [closed] at hq
          rw [e, List.getLast?_append] at hl
          obtain rfl : z = l := by simpa using hl
          rw [show f :: r ++ [f] = r' ++ z :: [f] by rw [e]; simp, onPath_append, ← e] at hq
          rcases hq with hq | hq | hq
          · exact hon hq
          · rcases e2 with rfl | e2
            · rw [onSeg_self] at hq
              subst hq
              exact hon (onPath_mem (by simp))
            · exact no_strict_seg ax hq' e1.symm e2 hq
          · have : q = f := hq
            subst this
            exact hon (onPath_mem (by simp))

theorem inside_append (ax : Axis) (p : F × F) (l r : List (List (F × F))) :
    inside ax p (l ++ r) = (inside ax p l != inside ax p r) := by
  induction l with
  | nil => simp [inside]
  | cons x l ih => simp only [inside, List.cons_append, List.foldr_cons] at ih ⊢; rw [ih]; simp

end Verif.Clip
