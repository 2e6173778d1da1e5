import Verif.Model.StyleZoom
import Verif.Proof.F64
import Mathlib.Analysis.SpecialFunctions.Pow.Real

/-! # Lemmas about the zoom functions -/
namespace Verif.Style

variable {K : Type} [Field K] [LinearOrder K] [IsStrictOrderedRing K] [FloorRing K]

/-- What is assumed of floating point arithmetic: rounding is monotone and keeps 0 and 1; `Pow(b,0) = 1`
(documented) and `Pow` is monotone in the exponent. -/
structure Arith.Ok (A : Arith K) : Prop where
  rnd_mono : ∀ {x y : K}, x ≤ y → A.rnd x ≤ A.rnd y
  rnd_zero : A.rnd 0 = 0
  rnd_one : A.rnd 1 = 1
  pow_zero : ∀ b, A.pow b 0 = 1
  pow_mono : ∀ {b x y : K}, 1 ≤ b → 0 ≤ x → x ≤ y → A.pow b x ≤ A.pow b y
  pow_anti : ∀ {b x y : K}, 0 ≤ b → b ≤ 1 → 0 ≤ x → x ≤ y → A.pow b y ≤ A.pow b x

/-- Exact real arithmetic. -/
noncomputable def exact : Arith ℝ := ⟨id, fun b x => b ^ x⟩

theorem exact_ok : exact.Ok where
  rnd_mono h := h
  rnd_zero := rfl
  rnd_one := rfl
  pow_zero b := Real.rpow_zero b
  pow_mono hb _ h := Real.rpow_le_rpow_of_exponent_le hb h
  pow_anti := by
    intro b x y h0 h1 hx h
    show b ^ y ≤ b ^ x
    rcases eq_or_lt_of_le h0 with e | l
    · subst e
      rcases eq_or_lt_of_le hx with e' | l'
      · subst e'; rw [Real.rpow_zero]; exact Real.zero_rpow_le_one y
      · rw [Real.zero_rpow l'.ne', Real.zero_rpow (l'.trans_le h).ne']
    · exact Real.rpow_le_rpow_of_exponent_ge l h1 h

/-- float64 arithmetic with any `Pow` that is 1 at exponent 0 and monotone. -/
theorem float_ok (pow : ℚ → ℚ → ℚ) (h0 : ∀ b, pow b 0 = 1)
    (hm : ∀ {b x y : ℚ}, 1 ≤ b → 0 ≤ x → x ≤ y → pow b x ≤ pow b y)
    (ha : ∀ {b x y : ℚ}, 0 ≤ b → b ≤ 1 → 0 ≤ x → x ≤ y → pow b y ≤ pow b x) :
    (⟨F64.rnd, pow⟩ : Arith ℚ).Ok where
  rnd_mono h := F64.rnd_mono h
  rnd_zero := F64.rnd_zero
  rnd_one := by have := F64.rnd_int 1 (by norm_num); simpa using this
  pow_zero := h0
  pow_mono := hm
  pow_anti := ha

/-- The denominator of the exponential percentage does not vanish. -/
def Proper (A : Arith K) (lower higher base : K) : Prop :=
  base = 1 ∨ A.rnd (A.pow base (A.rnd (higher - lower)) - 1) ≠ 0

theorem exact_proper {lo hi b : ℝ} (hb : 0 ≤ b) (h : lo < hi) : Proper exact lo hi b := by
  by_cases h1 : b = 1
  · exact .inl h1
  · right
    show b ^ (hi - lo) - 1 ≠ 0
    have hd : 0 < hi - lo := sub_pos.2 h
    rcases lt_or_gt_of_ne h1 with l | g
    · have := Real.rpow_lt_one hb l hd
      linarith
    · have := Real.one_lt_rpow g hd
      linarith

variable {A : Arith K}
set_option linter.unusedSectionVars false

theorem expPct_self (hA : A.Ok) (lo hi b : K) : expPct A lo lo hi b = 0 := by
  unfold expPct
  simp only [sub_self, hA.rnd_zero, zero_div, hA.pow_zero, ite_self]

theorem expPct_mono (hA : A.Ok) {lo hi b z z' : K} (hb : 0 ≤ b) (hp : Proper A lo hi b) (h0 : lo ≤ z)
    (h : z ≤ z') (h1 : z' ≤ hi) : expPct A z lo hi b ≤ expPct A z' lo hi b := by
  have hd0 : 0 ≤ A.rnd (hi - lo) := by
    rw [← hA.rnd_zero]; exact hA.rnd_mono (by linarith)
  have hz0 : 0 ≤ A.rnd (z - lo) := by
    rw [← hA.rnd_zero]; exact hA.rnd_mono (by linarith)
  have hzz : A.rnd (z - lo) ≤ A.rnd (z' - lo) := hA.rnd_mono (by linarith)
  unfold expPct
  simp only
  split
  · exact le_rfl
  · rename_i hd
    have hdp : 0 < A.rnd (hi - lo) := lt_of_le_of_ne hd0 (Ne.symm hd)
    split
    · exact hA.rnd_mono (div_le_div_of_nonneg_right hzz hd0)
    · rename_i hb1
      have hbot := hp.resolve_left hb1
      refine hA.rnd_mono ?_
      rcases le_total 1 b with h1b | h1b
      · have hbp : 0 ≤ A.rnd (A.pow b (A.rnd (hi - lo)) - 1) := by
          rw [← hA.rnd_zero]; refine hA.rnd_mono ?_
          have := hA.pow_mono h1b le_rfl hd0
          rw [hA.pow_zero] at this; linarith
        refine div_le_div_of_nonneg_right (hA.rnd_mono ?_) hbp
        have := hA.pow_mono h1b hz0 hzz
        linarith
      · have hbp : A.rnd (A.pow b (A.rnd (hi - lo)) - 1) ≤ 0 := by
          rw [← hA.rnd_zero]; refine hA.rnd_mono ?_
          have := hA.pow_anti hb h1b le_rfl hd0
          rw [hA.pow_zero] at this; linarith
        refine div_le_div_of_nonpos_of_le hbp (hA.rnd_mono ?_)
        have := hA.pow_anti hb h1b hz0 hzz
        linarith

theorem expPct_le_one (hA : A.Ok) {lo hi b z : K} (hb : 0 ≤ b) (hp : Proper A lo hi b) (h0 : lo ≤ z)
    (h1 : z ≤ hi) : expPct A z lo hi b ≤ 1 := by
  refine (expPct_mono hA hb hp h0 h1 le_rfl).trans ?_
  unfold expPct
  simp only
  split
  · exact zero_le_one
  · rename_i hd
    split
    · rw [div_self hd, hA.rnd_one]
    · rename_i hb1
      rw [div_self (hp.resolve_left hb1), hA.rnd_one]

theorem expPct_nonneg (hA : A.Ok) {lo hi b z : K} (hb : 0 ≤ b) (hp : Proper A lo hi b) (h0 : lo ≤ z)
    (h1 : z ≤ hi) : 0 ≤ expPct A z lo hi b := by
  rw [← expPct_self hA lo hi b]
  exact expPct_mono hA hb hp le_rfl h0 h1

theorem expPct_exact {lo hi : ℝ} (b z : ℝ) (h : lo < hi) : expPct exact z lo hi b =
    if b = 1 then (z - lo) / (hi - lo) else (b ^ (z - lo) - 1) / (b ^ (hi - lo) - 1) := by
  have hd : ¬ exact.rnd (hi - lo) = 0 := by show ¬ hi - lo = 0; linarith
  unfold expPct
  simp only
  rw [if_neg hd]
  rfl

theorem expPct_pos_exact {lo hi b z : ℝ} (hb : 0 ≤ b) (h0 : lo < z) (h1 : z < hi) :
    0 < expPct exact z lo hi b := by
  have hd' : 0 < hi - lo := by linarith
  have hz : 0 < z - lo := by linarith
  rw [expPct_exact b z (h0.trans h1)]
  split
  · exact div_pos hz hd'
  · rename_i hb1
    rcases lt_or_gt_of_ne hb1 with l | g
    · exact div_pos_of_neg_of_neg (by have := Real.rpow_lt_one hb l hz; linarith)
        (by have := Real.rpow_lt_one hb l hd'; linarith)
    · exact div_pos (by have := Real.one_lt_rpow g hz; linarith)
        (by have := Real.one_lt_rpow g hd'; linarith)

/-- the loop stops at the pair of stops around the zoom -/
theorem numLoop_segment (base : Option K) (z : K) (a b : NumStop K) (post : List (NumStop K))
    (hb : z < b.zoom) : ∀ (pre : List (NumStop K)) (s : NumStop K) (rest : List (NumStop K)),
    s :: rest = pre ++ a :: b :: post → (∀ t ∈ pre ++ [a], t.zoom ≤ z) →
    numLoop A base z s rest = numBetween A a b z base := by
  intro pre
  induction pre with
  | nil =>
    intro s rest h _
    simp only [List.nil_append, List.cons.injEq] at h
    obtain ⟨rfl, rfl⟩ := h
    simp [numLoop, not_le.2 hb]
  | cons p pre ih =>
    intro s rest h hz
    simp only [List.cons_append, List.cons.injEq] at h
    obtain ⟨rfl, rfl⟩ := h
    cases hc : pre ++ a :: b :: post with
    | nil => simp at hc
    | cons n r =>
      have hn : n.zoom ≤ z := by
        apply hz
        cases pre with
        | nil => simp at hc; simp [hc.1]
        | cons q pre => simp at hc; simp [hc.1]
      rw [numLoop, if_pos hn]
      exact ih n r hc.symm (fun t ht => hz t (by simp at ht ⊢; tauto))

theorem numLoop_last (base : Option K) (z : K) : ∀ (rest : List (NumStop K)) (s : NumStop K),
    (∀ t ∈ rest, t.zoom ≤ z) → numLoop A base z s rest = ((s :: rest).getLast (by simp)).value := by
  intro rest
  induction rest with
  | nil => intro s _; rfl
  | cons n r ih =>
    intro s h
    rw [numLoop, if_pos (h n (by simp)), ih n (fun t ht => h t (by simp [ht]))]
    simp

theorem colLoop_segment (base : Option K) (z : K) (a b : ColStop K) (post : List (ColStop K))
    (hb : z < b.zoom) : ∀ (pre : List (ColStop K)) (s : ColStop K) (rest : List (ColStop K)),
    s :: rest = pre ++ a :: b :: post → (∀ t ∈ pre ++ [a], t.zoom ≤ z) →
    colLoop A base z s rest = colBlend A base z a b := by
  intro pre
  induction pre with
  | nil =>
    intro s rest h _
    simp only [List.nil_append, List.cons.injEq] at h
    obtain ⟨rfl, rfl⟩ := h
    simp [colLoop, not_le.2 hb]
  | cons p pre ih =>
    intro s rest h hz
    simp only [List.cons_append, List.cons.injEq] at h
    obtain ⟨rfl, rfl⟩ := h
    cases hc : pre ++ a :: b :: post with
    | nil => simp at hc
    | cons n r =>
      have hn : n.zoom ≤ z := by
        apply hz
        cases pre with
        | nil => simp at hc; simp [hc.1]
        | cons q pre => simp at hc; simp [hc.1]
      rw [colLoop, if_pos hn]
      exact ih n r hc.symm (fun t ht => hz t (by simp at ht ⊢; tauto))

theorem colLoop_last (base : Option K) (z : K) : ∀ (rest : List (ColStop K)) (s : ColStop K),
    (∀ t ∈ rest, t.zoom ≤ z) →
    colLoop A base z s rest = .ok (.color ((s :: rest).getLast (by simp)).color) := by
  intro rest
  induction rest with
  | nil => intro s _; rfl
  | cons n r ih =>
    intro s h
    rw [colLoop, if_pos (h n (by simp)), ih n (fun t ht => h t (by simp [ht]))]
    simp

theorem numBetween_start (hA : A.Ok) (a b : NumStop K) (base : Option K) (hv : A.rnd a.value = a.value) :
    numBetween A a b a.zoom base = a.value := by
  unfold numBetween
  simp only [expPct_self hA, zero_mul, hA.rnd_zero, zero_add, hv]

theorem numBetween_mono (hA : A.Ok) {a b : NumStop K} {z z' : K} {base : Option K}
    (hb : 0 ≤ base.getD 1) (hp : Proper A a.zoom b.zoom (base.getD 1)) (h0 : a.zoom ≤ z) (h : z ≤ z')
    (h1 : z' ≤ b.zoom) : numBetween A a b z base ≤ numBetween A a b z' base := by
  unfold numBetween
  simp only
  have := expPct_mono hA hb hp h0 h h1
  have h2 := mul_le_mul_of_nonneg_right this (abs_nonneg (A.rnd (b.value - a.value)))
  exact hA.rnd_mono (add_le_add_left (hA.rnd_mono h2) _)

theorem numBetween_exact (a b : NumStop ℝ) (z : ℝ) (base : Option ℝ) :
    numBetween exact a b z base = a.value + expPct exact z a.zoom b.zoom (base.getD 1) * |b.value - a.value| := by
  unfold numBetween
  simp only [exact, id]
  ring

/-- the value of the loop lies above the current stop's value, and is monotone in the zoom -/
theorem numLoop_mono {base : Option ℝ} (hb : 0 ≤ base.getD 1) {z z' : ℝ} (h : z ≤ z') :
    ∀ (rest : List (NumStop ℝ)) (s : NumStop ℝ), (s :: rest).Pairwise (fun a b => a.zoom < b.zoom) →
    (s :: rest).Pairwise (fun a b => a.value ≤ b.value) → s.zoom ≤ z →
    s.value ≤ numLoop exact base z s rest ∧ numLoop exact base z s rest ≤ numLoop exact base z' s rest := by
  intro rest
  induction rest generalizing z z' with
  | nil => intro s _ _ _; exact ⟨le_rfl, le_rfl⟩
  | cons n r ih =>
    intro s hz hv hs
    have hz' := (List.pairwise_cons.1 hz)
    have hv' := (List.pairwise_cons.1 hv)
    have hsn := hz'.1 n (by simp)
    have hvn := hv'.1 n (by simp)
    have habs : |n.value - s.value| = n.value - s.value := abs_of_nonneg (sub_nonneg.2 hvn)
    have hpr := exact_proper hb hsn
    unfold numLoop
    by_cases h1 : n.zoom ≤ z
    · have h2 : n.zoom ≤ z' := h1.trans h
      simp only [h1, h2, if_true]
      have := ih h n hz'.2 hv'.2 h1
      exact ⟨hvn.trans this.1, this.2⟩
    · have hlt : z < n.zoom := not_le.1 h1
      simp only [h1, if_false]
      have hlow : s.value ≤ numBetween exact s n z base := by
        rw [numBetween_exact, habs]
        have := expPct_nonneg exact_ok hb hpr hs hlt.le
        nlinarith
      have hup : numBetween exact s n z base ≤ n.value := by
        rw [numBetween_exact, habs]
        have := expPct_le_one exact_ok hb hpr hs hlt.le
        nlinarith
      refine ⟨hlow, ?_⟩
      by_cases h2 : n.zoom ≤ z'
      · simp only [h2, if_true]
        exact hup.trans (ih (le_refl z') n hz'.2 hv'.2 h2).1
      · simp only [h2, if_false]
        exact numBetween_mono exact_ok hb hpr hs h (not_le.1 h2).le

/-- a blended channel lies between the two channels and is a byte -/
theorem colBetween_spec (hA : A.Ok) (hi : ∀ n : ℤ, |n| ≤ 255 → A.rnd (n : K) = n) {p : K} (h0 : 0 ≤ p)
    (h1 : p ≤ 1) {x y : Nat} (hx : x ≤ 255) (hy : y ≤ 255) :
    ∃ v, colBetween A p x y = some v ∧ min x y ≤ v ∧ v ≤ max x y ∧
      (v : ℤ) = ⌊A.rnd (((y : ℤ) - (x : ℤ) : ℤ) * p)⌋ + x := by
  set d : ℤ := (y : ℤ) - x with hd
  have hdb : |d| ≤ 255 := by rw [abs_le]; omega
  have hdiff : A.rnd ((y : K) - (x : K)) = (d : K) := by
    have := hi d hdb
    rw [hd] at this ⊢; push_cast at this ⊢; exact this
  set f := ⌊A.rnd ((d : K) * p)⌋ with hf
  -- the product is between 0 and d
  have hbnd : (0 ≤ d → 0 ≤ f ∧ f ≤ d) ∧ (d ≤ 0 → d ≤ f ∧ f ≤ 0) := by
    constructor
    · intro hd0
      have hdK : (0 : K) ≤ d := by exact_mod_cast hd0
      have a1 : A.rnd 0 ≤ A.rnd ((d : K) * p) := hA.rnd_mono (mul_nonneg hdK h0)
      have a2 : A.rnd ((d : K) * p) ≤ A.rnd d := hA.rnd_mono (by nlinarith)
      rw [hA.rnd_zero] at a1
      rw [hi d hdb] at a2
      refine ⟨Int.floor_nonneg.2 a1, ?_⟩
      have := Int.floor_le (A.rnd ((d : K) * p))
      have : ((f : ℤ) : K) ≤ d := this.trans a2
      exact_mod_cast this
    · intro hd0
      have hdK : (d : K) ≤ 0 := by exact_mod_cast hd0
      have a1 : A.rnd d ≤ A.rnd ((d : K) * p) := hA.rnd_mono (by nlinarith)
      have a2 : A.rnd ((d : K) * p) ≤ A.rnd 0 := hA.rnd_mono (by nlinarith)
      rw [hA.rnd_zero] at a2
      rw [hi d hdb] at a1
      refine ⟨Int.le_floor.2 a1, ?_⟩
      have := Int.floor_le (A.rnd ((d : K) * p))
      have : ((f : ℤ) : K) ≤ ((0 : ℤ) : K) := by push_cast; exact this.trans a2
      exact_mod_cast this
  have hr : 0 ≤ f + x ∧ f + x ≤ 255 := by
    rcases le_total 0 d with h | h
    · have := hbnd.1 h; omega
    · have := hbnd.2 h; omega
  have hval : valueThrough A (x : K) (y : K) p = ((f + x : ℤ) : K) := by
    unfold valueThrough
    simp only [hdiff]
    have := hi (f + x) (by rw [abs_of_nonneg hr.1]; exact hr.2)
    rw [← this]; push_cast; rfl
  refine ⟨(f + x).toNat, ?_, ?_, ?_, ?_⟩
  · unfold colBetween toU8
    rw [hval]
    have c1 : (-1 : K) < ((f + x : ℤ) : K) := by
      have : ((-1 : ℤ) : K) < ((f + x : ℤ) : K) := by exact_mod_cast (by omega : (-1 : ℤ) < f + x)
      simpa using this
    have c2 : ((f + x : ℤ) : K) < 256 := by
      have : ((f + x : ℤ) : K) < ((256 : ℤ) : K) := by exact_mod_cast (by omega : f + x < (256 : ℤ))
      simpa using this
    rw [if_pos ⟨c1, c2⟩, Int.floor_intCast]
  · rcases le_total 0 d with h | h
    · have := hbnd.1 h; omega
    · have := hbnd.2 h; omega
  · rcases le_total 0 d with h | h
    · have := hbnd.1 h; omega
    · have := hbnd.2 h; omega
  · omega

end Verif.Style
