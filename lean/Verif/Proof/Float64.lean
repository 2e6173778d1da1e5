import Verif.Spec.Float64
import Verif.Proof.F64
import Mathlib.Tactic

/-! # `rnd64` rounds to the nearest float64 -/
namespace Verif.F64

open Verif.Doc

/-- The exponent of the unit. -/
def ex (q : ℚ) : ℤ := max (ilog |q| - 52) (-1074)

theorem rnd64_neg (q : ℚ) : rnd64 (-q) = -rnd64 q := by
  unfold rnd64
  by_cases h : q = 0
  · simp [h]
  · rw [if_neg h, if_neg (by simpa using h)]
    simp only [abs_neg, neg_div, rne_neg, Int.cast_neg, neg_mul]

theorem rnd64_eq {q : ℚ} (h : q ≠ 0) : rnd64 q = rne (q / pow2 (ex q)) * pow2 (ex q) := by
  unfold rnd64
  rw [if_neg h]
  rfl

theorem rne_near (x : ℚ) (k : ℤ) : |(rne x : ℚ) - x| ≤ |(k : ℚ) - x| := by
  have a := rne_spec x
  by_cases h : k = rne x
  · rw [h]
  · have h1 : |(rne x : ℚ) - x| ≤ 1 / 2 := abs_le.2 ⟨by linarith [a.2], a.1⟩
    rcases lt_or_gt_of_ne h with h | h
    · have : (k : ℚ) + 1 ≤ rne x := by exact_mod_cast h
      rw [abs_le] at h1
      rw [show |(k : ℚ) - x| = x - k from by rw [abs_sub_comm, abs_of_nonneg]; linarith [h1.2]]
      rw [abs_le]
      constructor <;> linarith [h1.1, h1.2]
    · have : (rne x : ℚ) + 1 ≤ k := by exact_mod_cast h
      rw [abs_le] at h1
      rw [show |(k : ℚ) - x| = k - x from by rw [abs_of_nonneg]; linarith [h1.1]]
      rw [abs_le]
      constructor <;> linarith [h1.1, h1.2]

theorem rne_even (x : ℚ) (k : ℤ) (hk : k ≠ rne x) (h : |(k : ℚ) - x| = |(rne x : ℚ) - x|) : 2 ∣ rne x := by
  have a := Int.floor_le x
  have b := Int.lt_floor_add_one x
  have h2 : (k : ℚ) + rne x = 2 * x := by
    rcases abs_eq_abs.1 h with h | h
    · exact absurd (by exact_mod_cast (by linarith : (k : ℚ) = rne x)) hk
    · linarith
  have s := rne_spec x
  unfold rne at hk h2 ⊢
  dsimp only at hk h2 ⊢
  split_ifs at hk h2 ⊢ with h3 h4 h5
  · exfalso
    have : (k : ℚ) = 2 * x - ⌊x⌋ := by linarith
    have l1 : (⌊x⌋ : ℚ) ≤ k := by linarith
    have l2 : (k : ℚ) < ⌊x⌋ + 1 := by linarith
    have : ⌊x⌋ ≤ k := by exact_mod_cast l1
    have : k < ⌊x⌋ + 1 := by exact_mod_cast l2
    omega
  · exfalso
    push_cast at h2
    have l1 : (⌊x⌋ : ℚ) < k := by linarith
    have l2 : (k : ℚ) ≤ ⌊x⌋ + 1 := by linarith
    have : ⌊x⌋ < k := by exact_mod_cast l1
    have : k ≤ ⌊x⌋ + 1 := by exact_mod_cast l2
    omega
  · omega
  · omega

theorem scaled64 {q : ℚ} (hq : 0 < q) : 0 < q / pow2 (ex q) ∧ q / pow2 (ex q) < 2 ^ 53 ∧
    (-1074 < ex q → (2 : ℚ) ^ 52 ≤ q / pow2 (ex q)) := by
  have s := ilog_spec hq
  have hp := pow2_pos (ex q)
  have hex : ex q = max (ilog q - 52) (-1074) := by rw [ex, abs_of_pos hq]
  refine ⟨by positivity, ?_, ?_⟩
  · rw [div_lt_iff₀ hp]
    have : pow2 (ilog q + 1) ≤ pow2 (53 + ex q) := pow2_le (by omega)
    rw [pow2_add 53, show pow2 53 = 2 ^ 53 from by rw [pow2_eq]; norm_num] at this
    linarith
  · intro h
    rw [le_div_iff₀ hp]
    have : pow2 (52 + ex q) ≤ pow2 (ilog q) := pow2_le (by omega)
    rw [pow2_add 52, show pow2 52 = 2 ^ 52 from by rw [pow2_eq]; norm_num] at this
    linarith

theorem rne_of_int (n : ℤ) : rne (n : ℚ) = n := by
  unfold rne
  simp [Int.floor_intCast]

theorem rne_scaled64 {q : ℚ} (hq : 0 < q) : 0 ≤ rne (q / pow2 (ex q)) ∧ rne (q / pow2 (ex q)) ≤ 2 ^ 53 ∧
    (-1074 < ex q → 2 ^ 52 ≤ rne (q / pow2 (ex q))) := by
  obtain ⟨h1, h2, h3⟩ := scaled64 hq
  have e0 : rne (0 : ℚ) = 0 := by simp [rne]
  refine ⟨?_, ?_, ?_⟩
  · have := rne_mono h1.le
    rwa [e0] at this
  · have := rne_mono h2.le
    rwa [show ((2 : ℚ) ^ 53) = ((2 ^ 53 : ℤ) : ℚ) from by norm_num, rne_of_int] at this
  · intro h
    have := rne_mono (h3 h)
    rwa [show ((2 : ℚ) ^ 52) = ((2 ^ 52 : ℤ) : ℚ) from by norm_num, rne_of_int] at this

theorem rnd64_pos {q : ℚ} (hq : 0 < q) : 0 ≤ rnd64 q := by
  rw [rnd64_eq hq.ne']
  have : (0 : ℚ) ≤ rne (q / pow2 (ex q)) := by exact_mod_cast (rne_scaled64 hq).1
  have := pow2_pos (ex q)
  positivity

theorem fits_iff_pos {q : ℚ} (hq : 0 < q) : fits (rnd64 q) = true ↔ InRange q := by
  have hp := pow2_pos (ex q)
  obtain ⟨r0, r1, r2⟩ := rne_scaled64 hq
  obtain ⟨s0, s1, s2⟩ := scaled64 hq
  have s := ilog_spec hq
  have hex : ex q = max (ilog q - 52) (-1074) := by rw [ex, abs_of_pos hq]
  have hn := rnd64_pos hq
  have hv := rnd64_eq hq.ne'
  unfold fits InRange
  rw [decide_eq_true_iff, abs_of_nonneg hn, abs_of_pos hq, ← pow2_eq, ← pow2_eq]
  have e1 : pow2 1024 = pow2 53 * pow2 971 := by rw [← pow2_add]; norm_num
  have e2 : pow2 971 = 2 * pow2 970 := by rw [show (971 : ℤ) = 1 + 970 from rfl, pow2_add]; congr 1
  have e53 : pow2 53 = 2 ^ 53 := by rw [pow2_eq]; norm_num
  have e52 : pow2 52 = 2 ^ 52 := by rw [pow2_eq]; norm_num
  have p970 := pow2_pos 970
  generalize hN : rne (q / pow2 (ex q)) = n at *
  rcases lt_trichotomy (ilog q) 1023 with h | h | h
  · have i1 : rnd64 q < pow2 1024 := by
      have : pow2 53 * pow2 (ex q) ≤ pow2 1023 := by rw [← pow2_add]; exact pow2_le (by omega)
      have h3 : pow2 1023 < pow2 1024 := pow2_lt_iff.2 (by norm_num)
      have : (n : ℚ) ≤ 2 ^ 53 := by exact_mod_cast r1
      have : (n : ℚ) * pow2 (ex q) ≤ pow2 53 * pow2 (ex q) := mul_le_mul_of_nonneg_right (by rw [e53]; exact this) hp.le
      rw [hv]
      linarith
    have i2 : q < pow2 1024 - pow2 970 := by
      have h1 : pow2 (ilog q + 1) ≤ pow2 1023 := pow2_le (by omega)
      have h2 : pow2 1024 = 2 * pow2 1023 := by rw [show (1024 : ℤ) = 1 + 1023 from rfl, pow2_add]; congr 1
      have h3 : pow2 970 < pow2 1023 := pow2_lt_iff.2 (by norm_num)
      linarith [s.2]
    exact ⟨fun _ => i2, fun _ => i1⟩
  · have hx : ex q = 971 := by omega
    rw [hx] at hp hv hN s0 s1
    have hrs := rne_spec (q / pow2 971)
    rw [hN] at hrs
    have hmul : q = q / pow2 971 * pow2 971 := by field_simp
    constructor
    · intro h1
      by_contra h2
      have h3 : ((18014398509481983 : ℚ)) / 2 ≤ q / pow2 971 := by
        rw [le_div_iff₀ hp]
        push Not at h2
        rw [e1, e2, e53] at h2
        rw [e2]
        linarith
      have h4 := rne_mono h3
      rw [hN, show rne ((18014398509481983 : ℚ) / 2) = 9007199254740992 from by decide +kernel] at h4
      have h5 : (9007199254740992 : ℚ) ≤ n := by exact_mod_cast h4
      rw [hv, e1, e53] at h1
      have := mul_le_mul_of_nonneg_right h5 hp.le
      norm_num at h1
      linarith
    · intro h1
      have h3 : q / pow2 971 < (18014398509481983 : ℚ) / 2 := by
        rw [div_lt_iff₀ hp]
        rw [e1, e2, e53] at h1
        rw [e2]
        linarith
      have h4 : (n : ℚ) < 9007199254740992 := by linarith [hrs.1]
      rw [hv, e1, e53]
      norm_num
      exact mul_lt_mul_of_pos_right h4 hp
  · have i1 : ¬ rnd64 q < pow2 1024 := by
      have h1 : pow2 1024 ≤ pow2 52 * pow2 (ex q) := by rw [← pow2_add]; exact pow2_le (by omega)
      have h2 : (2 : ℚ) ^ 52 ≤ n := by exact_mod_cast r2 (by omega)
      have := mul_le_mul_of_nonneg_right h2 hp.le
      rw [hv]
      rw [e52] at h1
      linarith
    have i2 : ¬ q < pow2 1024 - pow2 970 := by
      have h1 : pow2 1024 ≤ pow2 (ilog q) := pow2_le (by omega)
      linarith [s.1]
    exact ⟨fun h => absurd h i1, fun h => absurd h i2⟩

theorem fits_iff (q : ℚ) : fits (rnd64 q) = true ↔ InRange q := by
  rcases lt_trichotomy q 0 with h | h | h
  · have := fits_iff_pos (q := -q) (by linarith)
    rw [rnd64_neg] at this
    unfold fits InRange at *
    rwa [abs_neg, abs_neg] at this
  · subst h
    unfold fits InRange
    simp only [rnd64, if_true, abs_zero, decide_eq_true_iff, ← pow2_eq]
    have h1 := pow2_pos 1024
    have h2 : pow2 970 < pow2 1024 := pow2_lt_iff.2 (by norm_num)
    constructor <;> intro _ <;> linarith
  · exact fits_iff_pos h

theorem float64_neg {q : ℚ} (h : Float64 q) : Float64 (-q) := by
  obtain ⟨m, e, h1, h2, h3, h4⟩ := h
  exact ⟨-m, e, by rwa [abs_neg], h2, h3, by rw [h4]; push_cast; ring⟩

theorem float64_zero : Float64 0 := ⟨0, 0, by norm_num, by norm_num, by norm_num, by norm_num⟩

theorem float64_pos {q : ℚ} (hq : 0 < q) (hf : InRange q) : Float64 (rnd64 q) := by
  have hp := pow2_pos (ex q)
  obtain ⟨r0, r1, r2⟩ := rne_scaled64 hq
  have hv := rnd64_eq hq.ne'
  have hlt := (fits_iff_pos hq).2 hf
  unfold fits at hlt
  rw [decide_eq_true_iff, abs_of_nonneg (rnd64_pos hq)] at hlt
  have hge : -1074 ≤ ex q := le_max_right _ _
  have e53 : pow2 53 = 2 ^ 53 := by rw [pow2_eq]; norm_num
  have e52 : pow2 52 = 2 ^ 52 := by rw [pow2_eq]; norm_num
  generalize hN : rne (q / pow2 (ex q)) = n at *
  rcases lt_or_eq_of_le r1 with h | h
  · refine ⟨n, ex q, by rw [abs_of_nonneg r0]; exact h, hge, ?_, by rw [hv, pow2_eq]⟩
    by_contra hc
    have h1 : pow2 1024 ≤ pow2 52 * pow2 (ex q) := by rw [← pow2_add]; exact pow2_le (by omega)
    have h2 : (2 : ℚ) ^ 52 ≤ n := by exact_mod_cast r2 (by omega)
    have := mul_le_mul_of_nonneg_right h2 hp.le
    rw [e52] at h1
    rw [hv] at hlt
    linarith
  · have hv' : rnd64 q = pow2 (53 + ex q) := by rw [hv, h, pow2_add, e53]; norm_num
    rw [hv', pow2_lt_iff] at hlt
    refine ⟨2 ^ 52, ex q + 1, by norm_num, by omega, by omega, ?_⟩
    rw [hv', show 53 + ex q = 52 + (ex q + 1) by ring, pow2_add, e52, ← pow2_eq]
    norm_num

theorem float64_rnd64 {q : ℚ} (hf : InRange q) : Float64 (rnd64 q) := by
  rcases lt_trichotomy q 0 with h | h | h
  · have := float64_neg (float64_pos (q := -q) (by linarith) (by unfold InRange at *; rwa [abs_neg]))
    rwa [rnd64_neg, neg_neg] at this
  · subst h
    simp only [rnd64, if_true]
    exact float64_zero
  · exact float64_pos h hf

/-- A float64 is a multiple of the unit of a number, or it is smaller than the power of two below the number. -/
theorem unit_or_below {q q' : ℚ} (h : Float64 q') :
    (∃ k : ℤ, q' = k * pow2 (ex q)) ∨ (-1074 < ex q ∧ q' < pow2 52 * pow2 (ex q)) := by
  obtain ⟨m, e, h1, h2, h3, h4⟩ := h
  rw [← pow2_eq] at h4
  by_cases he : ex q ≤ e
  · left
    refine ⟨m * 2 ^ (e - ex q).toNat, ?_⟩
    have : pow2 e = 2 ^ (e - ex q).toNat * pow2 (ex q) := by
      conv_lhs => rw [show e = ((e - ex q).toNat : ℤ) + ex q by omega, pow2_add]
      congr 1
      rw [pow2_eq, zpow_natCast]
    rw [h4, this]
    push_cast
    ring
  · right
    refine ⟨by omega, ?_⟩
    have hm : (m : ℚ) < 2 ^ 53 := by exact_mod_cast lt_of_le_of_lt (le_abs_self m) h1
    have hp := pow2_pos e
    have e53 : pow2 53 = 2 ^ 53 := by rw [pow2_eq]; norm_num
    have : pow2 53 * pow2 e ≤ pow2 52 * pow2 (ex q) := by rw [← pow2_add, ← pow2_add]; exact pow2_le (by omega)
    rw [e53] at this
    have := mul_lt_mul_of_pos_right hm hp
    rw [h4]
    linarith

theorem near_pos {q q' : ℚ} (hq : 0 < q) (h : Float64 q') : |rnd64 q - q| ≤ |q' - q| ∧
    (q' ≠ rnd64 q → |q' - q| = |rnd64 q - q| → LastBitZero (rnd64 q)) := by
  have hp := pow2_pos (ex q)
  obtain ⟨r0, r1, r2⟩ := rne_scaled64 hq
  obtain ⟨s0, s1, s2⟩ := scaled64 hq
  have hv := rnd64_eq hq.ne'
  have hmul : q = q / pow2 (ex q) * pow2 (ex q) := by field_simp
  have dist : ∀ k : ℚ, |k * pow2 (ex q) - q| = |k - q / pow2 (ex q)| * pow2 (ex q) := by
    intro k
    have : k * pow2 (ex q) - q = (k - q / pow2 (ex q)) * pow2 (ex q) := by rw [sub_mul, ← hmul]
    rw [this, abs_mul, abs_of_pos hp]
  have e52 : pow2 52 = 2 ^ 52 := by rw [pow2_eq]; norm_num
  rcases unit_or_below (q := q) h with ⟨k, hk⟩ | ⟨h1, h2⟩
  · rw [hv, hk, dist, dist]
    refine ⟨mul_le_mul_of_nonneg_right (rne_near _ k) hp.le, fun hne heq => ?_⟩
    have hne' : k ≠ rne (q / pow2 (ex q)) := fun h => hne (by rw [h])
    have hev := rne_even _ k hne' (mul_right_cancel₀ hp.ne' heq)
    generalize rne (q / pow2 (ex q)) = n at *
    rcases lt_or_eq_of_le r1 with h | h
    · refine ⟨n, ex q, hev, by rw [abs_of_nonneg r0]; exact h, ?_, by rw [pow2_eq]⟩
      rw [abs_of_nonneg r0]
      by_cases h' : -1074 < ex q
      · exact .inl (r2 h')
      · exact .inr (le_antisymm (by omega) (le_max_right _ _))
    · refine ⟨2 ^ 52, ex q + 1, by norm_num, by norm_num, .inl (by norm_num), ?_⟩
      rw [h, ← pow2_eq, pow2_add, show pow2 1 = 2 from by rw [pow2_eq]; norm_num]
      push_cast
      ring
  · have h3 := s2 h1
    have h4 : pow2 52 * pow2 (ex q) ≤ q := by
      rw [le_div_iff₀ hp] at h3
      rwa [e52]
    have h5 : |rnd64 q - q| ≤ |(2 ^ 52 : ℤ) * pow2 (ex q) - q| := by
      rw [hv, dist, dist]
      exact mul_le_mul_of_nonneg_right (rne_near _ _) hp.le
    have h6 : |((2 ^ 52 : ℤ) : ℚ) * pow2 (ex q) - q| = q - pow2 52 * pow2 (ex q) := by
      rw [e52, abs_sub_comm, abs_of_nonneg]
      · push_cast; ring
      · push_cast; rw [e52] at h4; linarith
    have h7 : |q' - q| = q - q' := by rw [abs_sub_comm, abs_of_pos]; linarith
    rw [h6] at h5
    rw [h7]
    refine ⟨by linarith, fun _ h8 => ?_⟩
    linarith

theorem rnd64_exact {q : ℚ} (h : Float64 q) : rnd64 q = q := by
  have pos : ∀ q : ℚ, 0 < q → Float64 q → rnd64 q = q := by
    intro q hq h
    have := (near_pos hq h).1
    rw [sub_self, abs_zero] at this
    have := abs_eq_zero.1 (le_antisymm this (abs_nonneg _))
    linarith
  rcases lt_trichotomy q 0 with h' | h' | h'
  · have := pos (-q) (by linarith) (float64_neg h)
    rw [rnd64_neg] at this
    linarith
  · subst h'; simp [rnd64]
  · exact pos q h' h

theorem inRange_float {q : ℚ} (h : Float64 q) : InRange q := by
  have : fits q = true := by
    obtain ⟨m, e, h1, h2, h3, h4⟩ := h
    unfold fits
    rw [decide_eq_true_iff, h4, ← pow2_eq, abs_mul, abs_of_pos (pow2_pos e)]
    have hm : |(m : ℚ)| < 2 ^ 53 := by exact_mod_cast h1
    have e53 : pow2 53 = 2 ^ 53 := by rw [pow2_eq]; norm_num
    have h5 : pow2 53 * pow2 e ≤ pow2 1024 := by rw [← pow2_add]; exact pow2_le (by omega)
    have := mul_lt_mul_of_pos_right hm (pow2_pos e)
    rw [e53] at h5
    linarith
  rw [← fits_iff, rnd64_exact h]
  exact this

theorem lastBit_neg {q : ℚ} (h : LastBitZero q) : LastBitZero (-q) := by
  obtain ⟨m, e, h1, h2, h3, h4⟩ := h
  exact ⟨-m, e, (dvd_neg).2 h1, by rwa [abs_neg], by rwa [abs_neg], by rw [h4]; push_cast; ring⟩

theorem nearest64 {x : ℚ} (h : InRange x) : Nearest64 x (rnd64 x) := by
  have key : ∀ q', Float64 q' → |rnd64 x - x| ≤ |q' - x| ∧ (q' ≠ rnd64 x → |q' - x| = |rnd64 x - x| → LastBitZero (rnd64 x)) := by
    intro q' hq'
    rcases lt_trichotomy x 0 with h' | h' | h'
    · have := near_pos (q := -x) (q' := -q') (by linarith) (float64_neg hq')
      rw [rnd64_neg] at this
      rw [show |rnd64 x - x| = |-rnd64 x - -x| from by rw [← abs_neg]; congr 1; ring,
        show |q' - x| = |-q' - -x| from by rw [← abs_neg]; congr 1; ring]
      refine ⟨this.1, fun h1 h2 => ?_⟩
      have := lastBit_neg (this.2 (fun h => h1 (by linarith)) h2)
      rwa [neg_neg] at this
    · subst h'
      have e : rnd64 0 = 0 := by simp [rnd64]
      rw [e]
      refine ⟨by simp, fun h1 h2 => absurd ?_ h1⟩
      rw [sub_self, abs_zero, sub_zero] at h2
      exact abs_eq_zero.1 h2
    · exact near_pos h' hq'
  exact ⟨float64_rnd64 h, fun q' h' => (key q' h').1, fun q' h' => (key q' h').2⟩

theorem rnd_eq_rnd64 {q : ℚ} (h : 1 ≤ |q|) : rnd q = rnd64 q := by
  have hq : q ≠ 0 := by rintro rfl; simp at h; linarith
  have h0 : 0 ≤ ilog |q| := by
    by_contra hn
    have h1 := (ilog_spec (abs_pos.2 hq)).2
    have h2 : pow2 (ilog |q| + 1) ≤ pow2 0 := pow2_le (by omega)
    have h3 : pow2 0 = 1 := by decide +kernel
    linarith
  unfold rnd rnd64
  rw [if_neg hq, if_neg hq, max_eq_left (by omega)]

/-- Rounding without a least exponent has the same range. -/
theorem fits_rnd (q : ℚ) : fits (rnd q) = true ↔ InRange q := by
  by_cases h1 : 1 ≤ |q|
  · rw [rnd_eq_rnd64 h1, fits_iff]
  · have h1' : |q| ≤ 1 := by linarith
    have e1 : rnd 1 = 1 := by decide +kernel
    have a1 : |rnd q| ≤ 1 := by
      rw [abs_le] at h1' ⊢
      have u := rnd_mono h1'.2
      have v := rnd_mono h1'.1
      rw [rnd_neg] at v
      rw [e1] at u v
      exact ⟨v, u⟩
    have b1 : (1 : ℚ) < pow2 1024 := by
      have : pow2 0 < pow2 1024 := pow2_lt_iff.2 (by norm_num)
      rwa [show pow2 0 = 1 by decide +kernel] at this
    have c1 : (1 : ℚ) ≤ (2 : ℚ) ^ (970 : ℤ) := one_le_zpow₀ (by norm_num) (by norm_num)
    have c2 : (2 : ℚ) ^ (971 : ℤ) ≤ (2 : ℚ) ^ (1024 : ℤ) := zpow_le_zpow_right₀ (by norm_num) (by norm_num)
    have c3 : (2 : ℚ) ^ (971 : ℤ) = 2 * (2 : ℚ) ^ (970 : ℤ) := by
      rw [show (971 : ℤ) = 1 + 970 by norm_num, zpow_add₀ (by norm_num), zpow_one]
    refine iff_of_true ?_ ?_
    · unfold fits
      rw [decide_eq_true_eq]
      exact lt_of_le_of_lt a1 b1
    · unfold InRange
      rw [c3] at c2
      clear c3
      generalize (2 : ℚ) ^ (970 : ℤ) = A at *
      generalize (2 : ℚ) ^ (1024 : ℤ) = B at *
      push Not at h1
      linarith

end Verif.F64
