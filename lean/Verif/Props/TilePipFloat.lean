import Verif.Spec.TileCoverFloat
import Verif.Proof.F64
import Verif.Props.MvtClipFloat
import Verif.Props.TilePip

/-! # C89: point in polygon in float64 arithmetic -/
namespace Verif.CoverF
open Verif.F64 Verif.Clip

/-- 2^-42: how far a computed crossing may be from the exact one. -/
def pipEps : ℚ := 1 / 4398046511104

theorem near_one_mul {a d α : ℚ} (ha : |a - 1| ≤ α) (hd : |d| ≤ 1 / 2 ^ 53) : |a * (1 + d) - 1| ≤ α + (1 + α) * (1 / 2 ^ 53) := by
  have e : a * (1 + d) - 1 = (a - 1) + a * d := by ring
  rw [e]
  have h1 : |a| ≤ 1 + α := by
    have := abs_add_le (a - 1) 1
    rw [show a - 1 + 1 = a by ring, abs_one] at this
    linarith
  exact (abs_add_le _ _).trans (add_le_add ha (abs_mul_le h1 hd))

theorem mean_le {t a b : ℚ} (h0 : 0 ≤ t) (h1 : t ≤ 1) (ha : |a| ≤ 180) (hb : |b| ≤ 180) : |(1 - t) * a + t * b| ≤ 180 := by
  obtain ⟨a1, a2⟩ := abs_le.mp ha
  obtain ⟨b1, b2⟩ := abs_le.mp hb
  rw [abs_le]
  constructor
  · nlinarith [mul_nonneg h0 (sub_nonneg.2 b1), mul_nonneg (sub_nonneg.2 h1) (sub_nonneg.2 a1)]
  · nlinarith [mul_nonneg h0 (sub_nonneg.2 b2), mul_nonneg (sub_nonneg.2 h1) (sub_nonneg.2 a2)]

theorem mean_gt {t a b x : ℚ} (h0 : 0 ≤ t) (h1 : t ≤ 1) (ha : x < a) (hb : x < b) : x < (1 - t) * a + t * b := by
  rcases eq_or_lt_of_le h0 with e | h
  · rw [← e]; linarith
  · nlinarith [mul_pos h (sub_pos.2 hb), mul_nonneg (sub_nonneg.2 h1) (sub_nonneg.2 ha.le)]

/-- The computed crossing is within 2^-42 of the exact one. -/
theorem xint_err (p a b : Pt) (ha : |a.1| ≤ 180) (hb : |b.1| ≤ 180) (hst : ¬ (a.2 ≤ p.2 ↔ b.2 ≤ p.2)) :
    |xint p a b - ((p.2 - a.2) * (b.1 - a.1) / (b.2 - a.2) + a.1)| < pipEps := by
  have hne : b.2 - a.2 ≠ 0 := by
    intro h; apply hst; rw [show b.2 = a.2 by linarith]
  have ht : 0 ≤ (p.2 - a.2) / (b.2 - a.2) ∧ (p.2 - a.2) / (b.2 - a.2) ≤ 1 := by
    by_cases h1 : a.2 ≤ p.2
    · have h2 : p.2 < b.2 := by by_contra hc; push Not at hc; exact hst ⟨fun _ => hc, fun _ => h1⟩
      exact ⟨div_nonneg (by linarith) (by linarith), (div_le_one (by linarith)).2 (by linarith)⟩
    · have h2 : b.2 ≤ p.2 := by by_contra hc; exact hst ⟨fun g => absurd g h1, fun g => absurd g hc⟩
      push Not at h1
      rw [← neg_div_neg_eq]
      exact ⟨div_nonneg (by linarith) (by linarith), (div_le_one (by linarith)).2 (by linarith)⟩
  unfold xint
  obtain ⟨d1, h1, e1⟩ := rnd_rel (p.2 - a.2)
  obtain ⟨d2, h2, e2⟩ := rnd_rel (b.1 - a.1)
  obtain ⟨d4, h4, e4⟩ := rnd_rel (b.2 - a.2)
  rw [e1, e2, e4]
  obtain ⟨d3, h3, e3⟩ := rnd_rel ((p.2 - a.2) * (1 + d1) * ((b.1 - a.1) * (1 + d2)))
  rw [e3]
  obtain ⟨d5, h5, e5⟩ := rnd_rel ((p.2 - a.2) * (1 + d1) * ((b.1 - a.1) * (1 + d2)) * (1 + d3) / ((b.2 - a.2) * (1 + d4)))
  rw [e5]
  have h4' := abs_le.mp h4
  have hd4 : 1 + d4 ≠ 0 := by norm_num at h4'; intro h; linarith
  set t : ℚ := (p.2 - a.2) / (b.2 - a.2) with htd
  set D : ℚ := b.1 - a.1 with hD
  set k : ℚ := (1 + d1) * (1 + d2) * (1 + d3) * (1 + d5) / (1 + d4) with hk
  have eq1 : (p.2 - a.2) * (1 + d1) * (D * (1 + d2)) * (1 + d3) / ((b.2 - a.2) * (1 + d4)) * (1 + d5) = t * D * k := by
    rw [htd, hk]; field_simp
  have eq2 : (p.2 - a.2) * D / (b.2 - a.2) = t * D := by rw [htd]; ring
  rw [eq1, eq2]
  have m1 : |(1 + d1) - 1| ≤ 1 / 2 ^ 53 := by rw [show 1 + d1 - 1 = d1 by ring]; exact h1
  have m2 := near_one_mul m1 h2
  have m3 := near_one_mul m2 h3
  have m5 := near_one_mul m3 h5
  set m : ℚ := (1 + d1) * (1 + d2) * (1 + d3) * (1 + d5) with hm
  have hkm : k * (1 + d4) = m := by rw [hk]; field_simp
  have hk1 : |k - 1| ≤ 51 / 10 / 2 ^ 53 := by
    have e : k - 1 = (m - 1) - d4 - (k - 1) * d4 := by linear_combination hkm
    have s1 := abs_sub ((m - 1) - d4) ((k - 1) * d4)
    have s2 := abs_sub (m - 1) d4
    rw [← e] at s1
    have s3 := abs_mul_le (le_refl |k - 1|) h4
    norm_num [-abs_mul] at s1 s2 s3 m5 h4 ⊢
    linarith
  have hDb : |D| ≤ 360 := by
    have a' := abs_le.mp ha
    have b' := abs_le.mp hb
    rw [abs_le]; constructor <;> linarith
  have htD : |t * D| ≤ 1 * 360 := abs_mul_le (by rw [abs_of_nonneg ht.1]; exact ht.2) hDb
  have dP : |t * D * k - t * D| ≤ 1 * 360 * (51 / 10 / 2 ^ 53) := by
    rw [show t * D * k - t * D = t * D * (k - 1) by ring]
    exact abs_mul_le htD hk1
  have hx : |t * D + a.1| ≤ 180 := by
    have a' := abs_le.mp ha
    have b' := abs_le.mp hb
    have e : t * D + a.1 = (1 - t) * a.1 + t * b.1 := by rw [hD]; ring
    rw [e]
    exact mean_le ht.1 ht.2 ha hb
  have fin := rnd_err (t * D * k + a.1)
  have s1 : |t * D * k + a.1| ≤ |t * D * k - t * D| + |t * D + a.1| := by
    rw [show t * D * k + a.1 = (t * D * k - t * D) + (t * D + a.1) by ring]; exact abs_add_le _ _
  have s2 := abs_sub_le (rnd (t * D * k + a.1)) (t * D * k + a.1) (t * D + a.1)
  rw [show t * D * k + a.1 - (t * D + a.1) = t * D * k - t * D by ring] at s2
  unfold pipEps
  generalize |t * D * k - t * D| = A at *
  generalize |t * D + a.1| = B at *
  generalize |t * D * k + a.1| = C at *
  generalize |rnd (t * D * k + a.1) - (t * D * k + a.1)| = E at *
  generalize |rnd (t * D * k + a.1) - (t * D + a.1)| = G at *
  norm_num at fin dP ⊢
  linarith

theorem crosses_iff (p a b : Pt) : crosses p a b = true ↔
    ¬ (a.2 ≤ p.2 ↔ b.2 ≤ p.2) ∧ p.1 < max a.1 b.1 ∧ (a.1 = b.1 ∨ p.1 < xint p a b) := by
  have tail : a.2 ≠ b.2 → ((if p.1 ≥ max a.1 b.1 ∨ b.2 = a.2 then false
      else if a.1 ≠ b.1 ∧ p.1 ≥ xint p a b then false else true) = true ↔ p.1 < max a.1 b.1 ∧ (a.1 = b.1 ∨ p.1 < xint p a b)) := by
    intro hab
    by_cases h2 : p.1 ≥ max a.1 b.1
    · rw [if_pos (Or.inl h2)]
      constructor
      · intro h; cases h
      · rintro ⟨h, -⟩; exact absurd h (not_lt.2 h2)
    · rw [if_neg (by rintro (h | h); exact h2 h; exact hab h.symm)]
      by_cases h3 : a.1 ≠ b.1 ∧ p.1 ≥ xint p a b
      · rw [if_pos h3]
        constructor
        · intro h; cases h
        · rintro ⟨-, h | h⟩
          · exact absurd h h3.1
          · exact absurd h (not_lt.2 h3.2)
      · rw [if_neg h3]
        refine ⟨fun _ => ⟨not_le.1 h2, ?_⟩, fun _ => rfl⟩
        by_cases h4 : a.1 = b.1
        · exact Or.inl h4
        · right; by_contra h5; exact h3 ⟨h4, not_lt.1 h5⟩
  by_cases hab : a.2 = b.2
  · have : crosses p a b = false := by
      unfold crosses
      simp only [hab, ge_iff_le, le_refl, if_true]
      rw [if_pos]
      by_cases h : p.2 < b.2
      · exact Or.inl h
      · exact Or.inr (not_lt.1 h)
    rw [this, hab]; simp
  · have tl := tail hab
    unfold crosses
    by_cases hge : a.2 ≥ b.2
    · simp only [if_pos hge]
      by_cases h1 : p.2 < b.2 ∨ p.2 ≥ a.2
      · rw [if_pos h1]
        constructor
        · intro h; cases h
        · rintro ⟨h2, -⟩
          exfalso; apply h2
          rcases h1 with h1 | h1
          · exact ⟨fun h => by linarith, fun h => by linarith⟩
          · exact ⟨fun h => by linarith, fun h => by linarith⟩
      · rw [if_neg h1, tl]
        push Not at h1
        have hst : ¬ (a.2 ≤ p.2 ↔ b.2 ≤ p.2) := fun h => absurd (h.2 h1.1) (by linarith)
        exact ⟨fun h => ⟨hst, h⟩, fun h => h.2⟩
    · simp only [if_neg hge]
      push Not at hge
      by_cases h1 : p.2 < a.2 ∨ p.2 ≥ b.2
      · rw [if_pos h1]
        constructor
        · intro h; cases h
        · rintro ⟨h2, -⟩
          exfalso; apply h2
          rcases h1 with h1 | h1
          · exact ⟨fun h => by linarith, fun h => by linarith⟩
          · exact ⟨fun h => by linarith, fun h => by linarith⟩
      · rw [if_neg h1, tl]
        push Not at h1
        have hst : ¬ (a.2 ≤ p.2 ↔ b.2 ≤ p.2) := fun h => absurd (h.1 h1.1) (by linarith)
        exact ⟨fun h => ⟨hst, h⟩, fun h => h.2⟩

theorem crosses_self (p a : Pt) : crosses p a a = false := by
  rw [← Bool.not_eq_true, crosses_iff]; simp

/-- crossings of a path -/
def pathCount (p : Pt) : List Pt → Nat
  | [] => 0
  | [_] => 0
  | a :: b :: rest => (crosses p a b).toNat + pathCount p (b :: rest)

theorem countFrom_eq (p f : Pt) (l : List Pt) (h : l ≠ []) : countFrom p f l = pathCount p (l ++ [f]) := by
  induction l with
  | nil => exact absurd rfl h
  | cons a l ih =>
    cases l with
    | nil => simp [countFrom, pathCount]
    | cons b l =>
      simp only [countFrom, List.cons_append, pathCount]
      rw [ih (by simp), List.cons_append]

theorem pathCount_append (p : Pt) (l : List Pt) (a : Pt) (r : List Pt) :
    pathCount p (l ++ a :: r) = pathCount p (l ++ [a]) + pathCount p (a :: r) := by
  induction l with
  | nil => simp [pathCount]
  | cons b l ih =>
    cases l with
    | nil => simp [pathCount]
    | cons c l =>
      simp only [List.cons_append, pathCount] at ih ⊢
      rw [ih]; omega

/-- crossings of a ring given by its vertices -/
def ringC (p : Pt) (c : List Pt) : Nat :=
  match c with
  | [] => 0
  | a :: rest => pathCount p (a :: rest ++ [a])

theorem ringCount_eq (p : Pt) (c : List Pt) (h : c ≠ []) : ringCount p c = some (ringC p c) := by
  cases c with
  | nil => exact absurd rfl h
  | cons a rest =>
    unfold ringCount ringC
    simp only
    congr 1
    split_ifs with hc
    · rw [countFrom_eq _ _ _ (by simp)]
      simp only [List.cons_append, List.append_assoc, List.nil_append]
      have e1 : a :: (rest ++ [a, a]) = (a :: rest) ++ a :: [a] := by simp
      have e2 : a :: (rest ++ [a]) = (a :: rest) ++ [a] := by simp
      rw [e1, e2, pathCount_append]
      simp [pathCount, crosses_self]
    · rw [countFrom_eq _ _ _ (by simp)]

theorem pipCount_eq (p : Pt) (rings : List (List Pt)) :
    pipCount p rings = if [] ∈ rings then none else some (rings.map (ringC p)).sum := by
  induction rings with
  | nil => simp [pipCount]
  | cons c cs ih =>
    unfold pipCount
    by_cases hc : c = []
    · rw [hc]; simp [ringCount]
    · rw [ringCount_eq p c hc, ih]
      simp only
      by_cases h : [] ∈ cs
      · rw [if_pos h, if_pos (by simp [h])]; rfl
      · rw [if_neg h, if_neg (by simp only [List.mem_cons, not_or]; exact ⟨fun e => hc e.symm, h⟩)]
        simp

theorem pip_eq (rings : List (List Pt)) (p : Pt) :
    pip rings p = if [] ∈ rings then none else some ((rings.map (ringC p)).sum % 2 != 0) := by
  unfold pip
  rw [pipCount_eq]
  split <;> rfl

theorem pip_replace (pre post : List (List Pt)) (c c' : List Pt) (p : Pt) (hc : c = [] ↔ c' = [])
    (h : ringC p c = ringC p c') : pip (pre ++ c :: post) p = pip (pre ++ c' :: post) p := by
  rw [pip_eq, pip_eq]
  have : ([] ∈ pre ++ c :: post) ↔ ([] ∈ pre ++ c' :: post) := by
    simp only [List.mem_append, List.mem_cons]
    rw [eq_comm (a := []) (b := c), eq_comm (a := []) (b := c'), hc]
  simp only [this, List.map_append, List.map_cons, h]

/-- **C89** Rounding does not change: `Pip` panics exactly when a ring has no points. -/
theorem C89_panics_iff (rings : List (List Pt)) (p : Pt) : pip rings p = none ↔ [] ∈ rings := by
  rw [pip_eq]; split <;> simp_all

/-- **C89** A ring written closed or open gives the same answer, also in float64. -/
theorem C89_closed_or_open (pre post : List (List Pt)) (a : Pt) (rest : List Pt) (p : Pt) :
    pip (pre ++ (a :: rest) :: post) p = pip (pre ++ (a :: rest ++ [a]) :: post) p := by
  apply pip_replace
  · simp
  · show pathCount p (a :: rest ++ [a]) = pathCount p (a :: (rest ++ [a]) ++ [a])
    have e : a :: (rest ++ [a]) ++ [a] = (a :: rest) ++ a :: [a] := by simp
    rw [e, pathCount_append p (a :: rest) a [a]]
    simp [pathCount, crosses_self]

theorem ringC_rotate (p : Pt) (xs ys : List Pt) : ringC p (xs ++ ys) = ringC p (ys ++ xs) := by
  cases xs with
  | nil => simp
  | cons a xs =>
    cases ys with
    | nil => simp
    | cons b ys =>
      show pathCount p (a :: (xs ++ b :: ys) ++ [a]) = pathCount p (b :: (ys ++ a :: xs) ++ [b])
      have e1 : a :: (xs ++ b :: ys) ++ [a] = (a :: xs) ++ b :: (ys ++ [a]) := by simp
      have e2 : b :: (ys ++ a :: xs) ++ [b] = (b :: ys) ++ a :: (xs ++ [b]) := by simp
      rw [e1, e2, pathCount_append, pathCount_append p (b :: ys)]
      simp only [List.cons_append]
      omega

/-- **C89** Starting the ring at another vertex gives the same answer, also in float64. -/
theorem C89_rotation (pre post : List (List Pt)) (xs ys : List Pt) (p : Pt) :
    pip (pre ++ (xs ++ ys) :: post) p = pip (pre ++ (ys ++ xs) :: post) p := by
  apply pip_replace
  · simp [and_comm]
  · exact ringC_rotate p xs ys

/-- **C89** The order of the rings does not matter, also in float64. -/
theorem C89_ring_order (r r' : List (List Pt)) (h : r.Perm r') (p : Pt) : pip r p = pip r' p := by
  rw [pip_eq, pip_eq]
  simp only [h.mem_iff, (h.map (ringC p)).sum_eq]

/-- **C89** What is true of the exact function and false in float64: the direction of a ring matters.  A point computed to lie
on the slanted edge of a triangle is inside it, and outside when the triangle is written in the other direction. -/
theorem C89_reversal_false :
    pip [[(0, 0), (1, 3), (1, 0)]] (rnd (1 / 3), 1) = some true ∧ pip [[(1, 0), (1, 3), (0, 0)]] (rnd (1 / 3), 1) = some false := by
  decide +kernel

/-- **C89** What is true of the exact function and false in float64: here a point that lies west of every vertex is inside. -/
theorem C89_west_false :
    pip [[(6, 0), (rnd (1 / 3), 12), (6, 12)]] (rnd (1 / 3) - 1 / 2 ^ 52, 12 - 1 / 2 ^ 49) = some true ∧
    (∀ q ∈ [(6, 0), (rnd (1 / 3), 12), (6, (12 : ℚ))], rnd (1 / 3) - 1 / 2 ^ 52 < q.1) ∧
    IsF (rnd (1 / 3) - 1 / 2 ^ 52) ∧ IsF (12 - 1 / 2 ^ 49) := by
  refine ⟨by decide +kernel, by decide +kernel, ⟨6004799503160661 - 4, -54, by norm_num, by decide +kernel⟩,
    ⟨12 * 2 ^ 49 - 1, -49, by norm_num, by decide +kernel⟩⟩

/-! ## Agreement with the exact function -/

theorem xint_cast (p a b : Pt) : ((p.2 : ℝ) - a.2) * (b.1 - a.1) / (b.2 - a.2) + a.1 =
    (((p.2 - a.2) * (b.1 - a.1) / (b.2 - a.2) + a.1 : ℚ) : ℝ) := by push_cast; ring

theorem exact_iff (p a b : Pt) : Cover.crosses (toR p) (toR a) (toR b) = true ↔
    ¬ (a.2 ≤ p.2 ↔ b.2 ≤ p.2) ∧ p.1 < (p.2 - a.2) * (b.1 - a.1) / (b.2 - a.2) + a.1 := by
  rw [Cover.crosses_iff]
  simp only [toR, Rat.cast_le]
  rw [xint_cast, Rat.cast_lt]

theorem exact_between (p a b : Pt) (hst : ¬ (a.2 ≤ p.2 ↔ b.2 ≤ p.2)) :
    ∃ t : ℚ, 0 ≤ t ∧ t ≤ 1 ∧ (1 - t) * a.2 + t * b.2 = p.2 ∧
      (p.2 - a.2) * (b.1 - a.1) / (b.2 - a.2) + a.1 = (1 - t) * a.1 + t * b.1 := by
  have hne : b.2 - a.2 ≠ 0 := by
    intro h; apply hst; rw [show b.2 = a.2 by linarith]
  refine ⟨(p.2 - a.2) / (b.2 - a.2), ?_, ?_, ?_, ?_⟩
  · by_cases h1 : a.2 ≤ p.2
    · have h2 : p.2 < b.2 := by by_contra hc; push Not at hc; exact hst ⟨fun _ => hc, fun _ => h1⟩
      exact div_nonneg (by linarith) (by linarith)
    · have h2 : b.2 ≤ p.2 := by by_contra hc; exact hst ⟨fun g => absurd g h1, fun g => absurd g hc⟩
      push Not at h1
      rw [← neg_div_neg_eq]
      exact div_nonneg (by linarith) (by linarith)
  · by_cases h1 : a.2 ≤ p.2
    · have h2 : p.2 < b.2 := by by_contra hc; push Not at hc; exact hst ⟨fun _ => hc, fun _ => h1⟩
      exact (div_le_one (by linarith)).2 (by linarith)
    · have h2 : b.2 ≤ p.2 := by by_contra hc; exact hst ⟨fun g => absurd g h1, fun g => absurd g hc⟩
      push Not at h1
      rw [← neg_div_neg_eq]
      exact (div_le_one (by linarith)).2 (by linarith)
  · field_simp; ring
  · field_simp; ring

theorem crosses_agree (p a b : Pt) (ha : |a.1| ≤ 180) (hb : |b.1| ≤ 180) (hf : a.1 ≠ b.1 → FarFrom pipEps p a b) :
    crosses p a b = Cover.crosses (toR p) (toR a) (toR b) := by
  rw [Bool.eq_iff_iff, crosses_iff, exact_iff]
  by_cases hst : a.2 ≤ p.2 ↔ b.2 ≤ p.2
  · simp [hst]
  · simp only [hst, not_false_eq_true, true_and]
    obtain ⟨t, t0, t1, ty, tx⟩ := exact_between p a b hst
    by_cases hx : a.1 = b.1
    · rw [hx]; simp
    · have he := xint_err p a b ha hb hst
      have hf := hf hx t t0 t1 ty
      rw [tx] at he ⊢
      have hm : (1 - t) * a.1 + t * b.1 ≤ max a.1 b.1 := by
        have h1 := le_max_left a.1 b.1
        have h2 := le_max_right a.1 b.1
        nlinarith
      generalize (1 - t) * a.1 + t * b.1 = x at *
      obtain ⟨he1, he2⟩ := abs_lt.mp he
      constructor
      · rintro ⟨h1, h2⟩
        have h2 := h2.resolve_left hx
        by_contra hc
        push Not at hc
        rw [abs_of_nonneg (by linarith)] at hf
        linarith
      · intro h
        refine ⟨by linarith, Or.inr ?_⟩
        rw [abs_of_neg (by linarith)] at hf
        linarith

theorem edges_cons (a : Pt) (rest : List Pt) : edges (a :: rest) = (a :: rest).zip (rest ++ [a]) := rfl

theorem pathCount_agree (p : Pt) : ∀ (l : List Pt), (∀ e ∈ l.zip l.tail, crosses p e.1 e.2 = Cover.crosses (toR p) (toR e.1) (toR e.2)) →
    pathCount p l = Cover.pathCount (toR p) (l.map toR)
  | [], _ => rfl
  | [_], _ => rfl
  | a :: b :: rest, h => by
    simp only [pathCount, List.map_cons, Cover.pathCount]
    rw [h (a, b) (by simp), pathCount_agree p (b :: rest) (fun e he => h e (by
      simp only [List.tail_cons, List.zip_cons_cons, List.mem_cons] at he ⊢; exact Or.inr he))]
    rfl

theorem zip_snoc (a : Pt) (rest : List Pt) : (a :: rest ++ [a]).zip (a :: rest ++ [a]).tail = edges (a :: rest) := by
  rw [edges_cons]
  show ((a :: rest) ++ [a]).zip (rest ++ [a]) = _
  rw [← List.append_nil (rest ++ [a]), List.zip_append (by simp), List.append_nil]
  simp

theorem ringC_agree (p : Pt) (c : List Pt) (h : ∀ e ∈ edges c, crosses p e.1 e.2 = Cover.crosses (toR p) (toR e.1) (toR e.2)) :
    ringC p c = Cover.ringC (toR p) (c.map toR) := by
  cases c with
  | nil => rfl
  | cons a rest =>
    show pathCount p (a :: rest ++ [a]) = Cover.pathCount (toR p) (toR a :: rest.map toR ++ [toR a])
    rw [pathCount_agree p _ (by rw [zip_snoc]; exact h)]
    simp

theorem pip_agree (rings : List (List Pt)) (p : Pt)
    (h : ∀ c ∈ rings, ∀ e ∈ edges c, crosses p e.1 e.2 = Cover.crosses (toR p) (toR e.1) (toR e.2)) :
    pip rings p = Cover.pip (ringsR rings) (toR p) := by
  rw [pip_eq, Cover.pip_eq]
  have e1 : ([] ∈ ringsR rings) ↔ [] ∈ rings := by unfold ringsR; simp
  have e2 : rings.map (ringC p) = (ringsR rings).map (Cover.ringC (toR p)) := by
    unfold ringsR
    rw [List.map_map]
    exact List.map_congr_left fun c hc => ringC_agree p c (h c hc)
  simp only [e1, e2]

theorem edges_mem {c : List Pt} {e : Pt × Pt} (h : e ∈ edges c) : e.1 ∈ c ∧ e.2 ∈ c := by
  cases c with
  | nil => simp [edges] at h
  | cons a rest =>
    rw [edges_cons] at h
    obtain ⟨h1, h2⟩ := List.of_mem_zip h
    refine ⟨h1, ?_⟩
    simp only [List.mem_append, List.mem_cons, List.not_mem_nil, or_false] at h2 ⊢
    tauto

/-- **C89** In float64 `Pip` gives the exact answer for every point that is more than 2^-42 degrees (horizontally) away from
the slanted edges. -/
theorem C89_agrees (rings : List (List Pt)) (p : Pt) (hs : ∀ c ∈ rings, ∀ q ∈ c, |q.1| ≤ 180)
    (hf : ∀ c ∈ rings, ∀ e ∈ edges c, e.1.1 ≠ e.2.1 → FarFrom (1 / 2 ^ 42) p e.1 e.2) :
    pip rings p = Cover.pip (ringsR rings) (toR p) := by
  have e42 : (1 : ℚ) / 2 ^ 42 = pipEps := by unfold pipEps; norm_num
  refine pip_agree rings p fun c hc e he => ?_
  obtain ⟨h1, h2⟩ := edges_mem he
  exact crosses_agree p e.1 e.2 (hs c hc _ h1) (hs c hc _ h2) (fun hx => by rw [← e42]; exact hf c hc e he hx)

/-- **C89** Rings all of whose edges are horizontal or vertical are treated exactly, whatever their size. -/
theorem C89_rectilinear (rings : List (List Pt)) (p : Pt)
    (hr : ∀ c ∈ rings, ∀ e ∈ edges c, e.1.1 = e.2.1 ∨ e.1.2 = e.2.2) :
    pip rings p = Cover.pip (ringsR rings) (toR p) := by
  refine pip_agree rings p fun c hc e he => ?_
  rw [Bool.eq_iff_iff, crosses_iff, exact_iff]
  rcases hr c hc e he with h | h
  · rw [h]; simp
  · rw [h]; simp

/-- **C89** A rectangle contains exactly the points of the half-open rectangle, also in float64. -/
theorem C89_rectangle (w s e n : ℚ) (hwe : w < e) (hsn : s < n) (p : Pt) :
    pip [[(w, s), (e, s), (e, n), (w, n), (w, s)]] p = some (decide (w ≤ p.1 ∧ p.1 < e ∧ s ≤ p.2 ∧ p.2 < n)) := by
  rw [C89_rectilinear]
  · have := Cover.C11_rectangle (w : ℝ) s e n (by exact_mod_cast hwe) (by exact_mod_cast hsn) (toR p)
    simp only [ringsR, List.map_cons, List.map_nil, toR] at this ⊢
    rw [this]
    simp only [Rat.cast_le, Rat.cast_lt]
  · intro c hc x hx
    rw [List.mem_singleton.1 hc, edges_cons] at hx
    simp only [List.cons_append, List.nil_append, List.zip_cons_cons, List.zip_nil_right, List.mem_cons, List.not_mem_nil, or_false] at hx
    rcases hx with rfl | rfl | rfl | rfl | rfl <;> simp

theorem pathCount_zero (p : Pt) (l : List Pt) (h : ∀ a ∈ l, ∀ b ∈ l, crosses p a b = false) : pathCount p l = 0 := by
  induction l with
  | nil => rfl
  | cons a l ih =>
    cases l with
    | nil => rfl
    | cons b l =>
      simp only [pathCount]
      rw [h a (by simp) b (by simp), ih (fun x hx y hy => h x (List.mem_cons_of_mem _ hx) y (List.mem_cons_of_mem _ hy))]
      rfl

/-- **C89** A point north, south or east of all vertices is outside, also in float64; west of them this holds from 2^-42 degrees
on (`C89_west_false`: closer it may fail). -/
theorem C89_outside_box (rings : List (List Pt)) (p : Pt) (hne : [] ∉ rings)
    (h : (∀ c ∈ rings, ∀ q ∈ c, q.1 ≤ p.1) ∨ (∀ c ∈ rings, ∀ q ∈ c, p.2 < q.2) ∨ (∀ c ∈ rings, ∀ q ∈ c, q.2 ≤ p.2) ∨
      (∀ c ∈ rings, ∀ q ∈ c, p.1 + 1 / 2 ^ 42 < q.1 ∧ |q.1| ≤ 180)) : pip rings p = some false := by
  have zero : (∀ c ∈ rings, ∀ a ∈ c, ∀ b ∈ c, crosses p a b = false) → pip rings p = some false := by
    intro hz
    rw [pip_eq, if_neg hne]
    have : (rings.map (ringC p)).sum = 0 := by
      rw [List.sum_eq_zero]
      intro x hx
      obtain ⟨c, hc, rfl⟩ := List.mem_map.1 hx
      cases c with
      | nil => rfl
      | cons a rest =>
        apply pathCount_zero
        intro u hu v hv
        have hm : ∀ q ∈ a :: rest ++ [a], q ∈ a :: rest := by
          intro q hq
          simp only [List.mem_cons, List.mem_append, List.cons_append, List.not_mem_nil, or_false] at hq ⊢
          tauto
        exact hz _ hc u (hm u hu) v (hm v hv)
    rw [this]; rfl
  rcases h with h | h | h | h
  · refine zero fun c hc a ha b hb => ?_
    rw [← Bool.not_eq_true, crosses_iff]
    rintro ⟨-, h1, -⟩
    exact absurd h1 (not_lt.2 (max_le (h c hc a ha) (h c hc b hb)))
  · refine zero fun c hc a ha b hb => ?_
    rw [← Bool.not_eq_true, crosses_iff]
    rintro ⟨h1, -⟩
    have h2 := h c hc a ha
    have h3 := h c hc b hb
    exact h1 ⟨fun g => by linarith, fun g => by linarith⟩
  · refine zero fun c hc a ha b hb => ?_
    rw [← Bool.not_eq_true, crosses_iff]
    rintro ⟨h1, -⟩
    exact h1 ⟨fun g => h c hc b hb, fun g => h c hc a ha⟩
  · rw [C89_agrees rings p (fun c hc q hq => (h c hc q hq).2)]
    · apply Cover.C11_outside_box
      · unfold ringsR; simpa using hne
      · left
        intro c hc q hq
        unfold ringsR at hc
        obtain ⟨c', hc', rfl⟩ := List.mem_map.1 hc
        obtain ⟨q', hq', rfl⟩ := List.mem_map.1 hq
        have := (h c' hc' q' hq').1
        have : p.1 < q'.1 := by
          have : (0 : ℚ) < 1 / 2 ^ 42 := by positivity
          linarith
        simpa [toR] using this
    · intro c hc e he _ t t0 t1 _
      obtain ⟨h1, h2⟩ := edges_mem he
      have h1 := (h c hc _ h1).1
      have h2 := (h c hc _ h2).1
      generalize (1 : ℚ) / 2 ^ 42 = d at *
      have : p.1 + d < (1 - t) * e.1.1 + t * e.2.1 := mean_gt t0 t1 h1 h2
      rw [abs_sub_comm]
      exact lt_of_lt_of_le (by linarith) (le_abs_self _)

/-! ## Triangles -/

theorem mean_unique {p a b c : ℝ × ℝ} {x y z x' y' z' : ℝ} (hD : Cover.area2 a b c ≠ 0) (h : Cover.IsMean p a b c x y z)
    (h' : Cover.IsMean p a b c x' y' z') : x = x' ∧ y = y' ∧ z = z' := by
  obtain ⟨s, u, v⟩ := h
  obtain ⟨s', u', v'⟩ := h'
  have e1 : ∀ {x y z : ℝ}, x + y + z = 1 → p.1 = x * a.1 + y * b.1 + z * c.1 → p.2 = x * a.2 + y * b.2 + z * c.2 →
      z * Cover.area2 a b c = Cover.area2 a b p ∧ y * Cover.area2 a b c = Cover.area2 c a p := by
    intro x y z s u v
    have hx : x = 1 - y - z := by linarith
    unfold Cover.area2
    rw [u, v, hx]
    constructor <;> ring
  have g := e1 s u v
  have g' := e1 s' u' v'
  have hz : z = z' := mul_right_cancel₀ hD (g.1.trans g'.1.symm)
  have hy : y = y' := mul_right_cancel₀ hD (g.2.trans g'.2.symm)
  exact ⟨by linarith, hy, hz⟩

/-- **C89** A triangle in float64: a point inside is found inside and a point outside is found outside, if it is more than 2^-42
degrees (horizontally) away from the edges.  The point is given by its barycentric coordinates. -/
theorem C89_triangle (p a b c : Pt) (x y z : ℚ) (hsum : x + y + z = 1)
    (hp : p = (x * a.1 + y * b.1 + z * c.1, x * a.2 + y * b.2 + z * c.2))
    (hD : (b.1 - a.1) * (c.2 - a.2) ≠ (c.1 - a.1) * (b.2 - a.2))
    (ha : |a.1| ≤ 180) (hb : |b.1| ≤ 180) (hc : |c.1| ≤ 180)
    (f1 : FarFrom (1 / 2 ^ 42) p a b) (f2 : FarFrom (1 / 2 ^ 42) p b c) (f3 : FarFrom (1 / 2 ^ 42) p c a) :
    (0 < x → 0 < y → 0 < z → pip [[a, b, c]] p = some true) ∧ (x < 0 ∨ y < 0 ∨ z < 0 → pip [[a, b, c]] p = some false) := by
  have hag : pip [[a, b, c]] p = Cover.pip [[toR a, toR b, toR c]] (toR p) := by
    refine C89_agrees _ p ?_ ?_
    · intro d hd q hq
      rw [List.mem_singleton.1 hd] at hq
      simp only [List.mem_cons, List.not_mem_nil, or_false] at hq
      rcases hq with rfl | rfl | rfl <;> assumption
    · intro d hd e he _
      rw [List.mem_singleton.1 hd, edges_cons] at he
      simp only [List.cons_append, List.nil_append, List.zip_cons_cons, List.zip_nil_right, List.mem_cons, List.not_mem_nil,
        or_false] at he
      rcases he with rfl | rfl | rfl <;> assumption
  have hD' : Cover.area2 (toR a) (toR b) (toR c) ≠ 0 := by
    unfold Cover.area2 toR
    simp only
    intro h
    apply hD
    have : ((b.1 : ℝ) - a.1) * (c.2 - a.2) = (c.1 - a.1) * (b.2 - a.2) := by linarith
    exact_mod_cast this
  have hmean : Cover.IsMean (toR p) (toR a) (toR b) (toR c) x y z := by
    unfold Cover.IsMean toR
    rw [hp]
    simp only
    refine ⟨by exact_mod_cast hsum, ?_, ?_⟩ <;> push_cast <;> ring
  have key := Cover.C11_triangle (toR p) (toR a) (toR b) (toR c) hD'
  constructor
  · intro h1 h2 h3
    rw [hag]
    exact key.1 ⟨x, y, z, hmean, by exact_mod_cast h1, by exact_mod_cast h2, by exact_mod_cast h3⟩
  · intro hneg
    cases hq : pip [[a, b, c]] p with
    | none => exact absurd ((C89_panics_iff _ _).1 hq) (by simp)
    | some v =>
      cases v with
      | false => rfl
      | true =>
        exfalso
        rw [hag] at hq
        obtain ⟨x', y', z', hm, g1, g2, g3⟩ := key.2 hq
        obtain ⟨e1, e2, e3⟩ := mean_unique hD' hmean hm
        rw [← e1] at g1
        rw [← e2] at g2
        rw [← e3] at g3
        rcases hneg with h | h | h
        · exact absurd (show (0 : ℚ) ≤ x by exact_mod_cast g1) (not_le.2 h)
        · exact absurd (show (0 : ℚ) ≤ y by exact_mod_cast g2) (not_le.2 h)
        · exact absurd (show (0 : ℚ) ≤ z by exact_mod_cast g3) (not_le.2 h)

/-- a case that meets the hypotheses -/
theorem C89_triangle_example : pip [[(0, 0), (4, 0), (0, 4)]] (1, 1) = some true ∧ pip [[(0, 0), (4, 0), (0, 4)]] (3, 3) = some false := by
  constructor
  · refine (C89_triangle (1, 1) (0, 0) (4, 0) (0, 4) (1 / 2) (1 / 4) (1 / 4) (by norm_num) (by norm_num) (by norm_num)
      (by norm_num) (by norm_num) (by norm_num) ?_ ?_ ?_).1 (by norm_num) (by norm_num) (by norm_num) <;>
    · intro t t0 t1 ht
      simp only at ht ⊢
      rw [lt_abs]
      have : (1 : ℚ) / 2 ^ 42 < 1 := by norm_num
      generalize (1 : ℚ) / 2 ^ 42 = d at *
      first | (exfalso; linarith) | (left; linarith) | (right; linarith)
  · refine (C89_triangle (3, 3) (0, 0) (4, 0) (0, 4) (-1 / 2) (3 / 4) (3 / 4) (by norm_num) (by norm_num) (by norm_num)
      (by norm_num) (by norm_num) (by norm_num) ?_ ?_ ?_).2 (Or.inl (by norm_num)) <;>
    · intro t t0 t1 ht
      simp only at ht ⊢
      rw [lt_abs]
      have : (1 : ℚ) / 2 ^ 42 < 1 := by norm_num
      generalize (1 : ℚ) / 2 ^ 42 = d at *
      first | (exfalso; linarith) | (left; linarith) | (right; linarith)

end Verif.CoverF
