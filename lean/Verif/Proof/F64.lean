import Verif.Proof.GoFloat
import Mathlib.Tactic.Linarith
import Mathlib.Tactic.Positivity
import Mathlib.Tactic.FieldSimp
import Mathlib.Tactic.Ring
import Mathlib.Algebra.Order.Field.Power

/-! # Facts about float64 rounding (`Verif.F64.rnd`) -/
namespace Verif.F64

theorem pow2_eq (e : ℤ) : pow2 e = (2 : ℚ) ^ e := by
  unfold pow2
  split
  · rename_i h
    conv_rhs => rw [← Int.toNat_of_nonneg h]
    rw [zpow_natCast]; push_cast; rfl
  · rename_i h
    have h' : 0 ≤ -e := by omega
    have : e = -((-e).toNat : ℤ) := by rw [Int.toNat_of_nonneg h']; ring
    conv_rhs => rw [this]
    rw [zpow_neg, zpow_natCast]; push_cast; rw [one_div]

theorem pow2_pos (e : ℤ) : 0 < pow2 e := by rw [pow2_eq]; positivity

theorem rne_spec (q : ℚ) : ((rne q : ℚ) - q ≤ 1 / 2) ∧ (q - rne q ≤ 1 / 2) := by
  have := abs_le.1 (rne_err q)
  constructor <;> linarith

theorem rne_mono {a b : ℚ} (h : a ≤ b) : rne a ≤ rne b := by
  have hf : ⌊a⌋ ≤ ⌊b⌋ := Int.floor_le_floor h
  have h1 := Int.floor_le a
  have h2 := Int.lt_floor_add_one b
  rcases eq_or_lt_of_le hf with e | l
  · unfold rne; simp only [e]
    split_ifs <;> first | omega | (exfalso; linarith)
  · have ha : rne a ≤ ⌊a⌋ + 1 := by unfold rne; simp only; split_ifs <;> omega
    have hb : ⌊b⌋ ≤ rne b := by unfold rne; simp only; split_ifs <;> omega
    omega

theorem floor_neg_of_int (q : ℚ) (h : q = ⌊q⌋) : ⌊-q⌋ = -⌊q⌋ := by
  conv_lhs => rw [h]
  rw [← Int.cast_neg, Int.floor_intCast]

theorem rne_neg (q : ℚ) : rne (-q) = - rne q := by
  by_cases hq : q = ⌊q⌋
  · rw [hq, ← Int.cast_neg, rne_int, rne_int]
  · have h1 : ((⌊q⌋ : ℤ) : ℚ) < q := lt_of_le_of_ne (Int.floor_le q) (fun h => hq h.symm)
    have h2 := Int.lt_floor_add_one q
    have hf : ⌊-q⌋ = -⌊q⌋ - 1 := by
      rw [Int.floor_eq_iff]; push_cast; constructor <;> linarith
    unfold rne; simp only [hf]; push_cast
    split_ifs <;> first | omega | (exfalso; linarith)

theorem ilog_spec {q : ℚ} (hq : 0 < q) : pow2 (ilog q) ≤ q ∧ q < pow2 (ilog q + 1) := by
  have hn : 0 < q.num := Rat.num_pos.2 hq
  have hna : q.num.natAbs ≠ 0 := by omega
  have hd : q.den ≠ 0 := q.den_nz
  set a := Nat.log2 q.num.natAbs
  set b := Nat.log2 q.den
  have a1 : 2 ^ a ≤ q.num.natAbs := Nat.log2_self_le hna
  have a2 : q.num.natAbs < 2 ^ (a + 1) := Nat.lt_log2_self
  have b1 : 2 ^ b ≤ q.den := Nat.log2_self_le hd
  have b2 : q.den < 2 ^ (b + 1) := Nat.lt_log2_self
  have hqe : q = (q.num.natAbs : ℚ) / q.den := by
    have h3 : ((q.num.natAbs : ℤ) : ℚ) = (q.num : ℚ) := by
      rw [Int.natAbs_of_nonneg hn.le]
    rw [Int.cast_natCast] at h3
    rw [h3]; exact (Rat.num_div_den q).symm
  have a1' : (2 : ℚ) ^ a ≤ q.num.natAbs := by exact_mod_cast a1
  have a2' : (q.num.natAbs : ℚ) < 2 ^ (a + 1) := by exact_mod_cast a2
  have b1' : (2 : ℚ) ^ b ≤ q.den := by exact_mod_cast b1
  have b2' : (q.den : ℚ) < 2 ^ (b + 1) := by exact_mod_cast b2
  have hdp : (0 : ℚ) < q.den := by exact_mod_cast Nat.pos_of_ne_zero hd
  have e1 : pow2 ((a : ℤ) - b + 1) = 2 ^ (a + 1) / 2 ^ b := by
    rw [pow2_eq, show (a : ℤ) - b + 1 = ((a + 1 : ℕ) : ℤ) - (b : ℕ) by push_cast; ring,
      zpow_sub₀ (by norm_num), zpow_natCast, zpow_natCast]
  have e2 : pow2 ((a : ℤ) - b - 1) = 2 ^ a / 2 ^ (b + 1) := by
    rw [pow2_eq, show (a : ℤ) - b - 1 = ((a : ℕ) : ℤ) - ((b + 1 : ℕ) : ℤ) by push_cast; ring,
      zpow_sub₀ (by norm_num), zpow_natCast, zpow_natCast]
  have hi : q < pow2 ((a : ℤ) - b + 1) := by
    rw [e1]; conv_lhs => rw [hqe]
    rw [div_lt_div_iff₀ hdp (by positivity)]
    have : (0 : ℚ) < 2 ^ (a + 1) := by positivity
    nlinarith [pow_pos (show (0 : ℚ) < 2 by norm_num) b]
  have lo : pow2 ((a : ℤ) - b - 1) ≤ q := by
    rw [e2]; conv_rhs => rw [hqe]
    rw [div_le_div_iff₀ (by positivity) hdp]
    have : (0 : ℚ) < 2 ^ a := by positivity
    nlinarith [pow_pos (show (0 : ℚ) < 2 by norm_num) (b + 1)]
  unfold ilog; simp only
  split
  · rename_i h; exact ⟨h, hi⟩
  · rename_i h; push Not at h
    refine ⟨lo, ?_⟩
    rw [show (a : ℤ) - b - 1 + 1 = a - b by ring]; exact h

theorem pow2_add (a b : ℤ) : pow2 (a + b) = pow2 a * pow2 b := by
  rw [pow2_eq, pow2_eq, pow2_eq, zpow_add₀ (by norm_num)]

theorem pow2_le {a b : ℤ} (h : a ≤ b) : pow2 a ≤ pow2 b := by
  rw [pow2_eq, pow2_eq]; exact zpow_le_zpow_right₀ (by norm_num) h

theorem pow2_lt_iff {a b : ℤ} : pow2 a < pow2 b ↔ a < b := by
  rw [pow2_eq, pow2_eq]; exact zpow_lt_zpow_iff_right₀ (by norm_num)

theorem rnd_zero : rnd 0 = 0 := by simp [rnd]

theorem rnd_neg (q : ℚ) : rnd (-q) = - rnd q := by
  unfold rnd
  by_cases h : q = 0
  · simp [h]
  · have h' : -q ≠ 0 := neg_ne_zero.2 h
    simp only [h, h', if_false, abs_neg]
    rw [neg_div, rne_neg]; push_cast; ring

/-- `rnd` of a positive number, spelled out. -/
theorem rnd_pos_eq {q : ℚ} (hq : 0 < q) :
    rnd q = rne (q / pow2 (ilog q - 52)) * pow2 (ilog q - 52) := by
  unfold rnd
  rw [if_neg hq.ne', abs_of_pos hq]

theorem scaled {q : ℚ} (hq : 0 < q) :
    (2 : ℚ) ^ 52 ≤ q / pow2 (ilog q - 52) ∧ q / pow2 (ilog q - 52) < 2 ^ 53 := by
  obtain ⟨h1, h2⟩ := ilog_spec hq
  have hu := pow2_pos (ilog q - 52)
  have e1 : pow2 (ilog q) = 2 ^ 52 * pow2 (ilog q - 52) := by
    rw [show ilog q = 52 + (ilog q - 52) by ring, pow2_add, show (52 : ℤ) + (ilog q - 52) - 52 = ilog q - 52 by ring]
    congr 1
  have e2 : pow2 (ilog q + 1) = 2 ^ 53 * pow2 (ilog q - 52) := by
    rw [show ilog q + 1 = 53 + (ilog q - 52) by ring, pow2_add]
    congr 1
  constructor
  · rw [le_div_iff₀ hu, ← e1]; exact h1
  · rw [div_lt_iff₀ hu, ← e2]; exact h2

theorem rne_scaled {q : ℚ} (hq : 0 < q) :
    (2 : ℤ) ^ 52 ≤ rne (q / pow2 (ilog q - 52)) ∧ rne (q / pow2 (ilog q - 52)) ≤ 2 ^ 53 := by
  obtain ⟨h1, h2⟩ := scaled hq
  constructor
  · have := rne_mono h1
    rw [show ((2 : ℚ) ^ 52) = (((2 : ℤ) ^ 52 : ℤ) : ℚ) by norm_num, rne_int] at this
    exact this
  · have := rne_mono h2.le
    rw [show ((2 : ℚ) ^ 53) = (((2 : ℤ) ^ 53 : ℤ) : ℚ) by norm_num, rne_int] at this
    exact this

theorem rnd_bounds {q : ℚ} (hq : 0 < q) : pow2 (ilog q) ≤ rnd q ∧ rnd q ≤ pow2 (ilog q + 1) := by
  rw [rnd_pos_eq hq]
  obtain ⟨h1, h2⟩ := rne_scaled hq
  have hu := pow2_pos (ilog q - 52)
  have e1 : pow2 (ilog q) = 2 ^ 52 * pow2 (ilog q - 52) := by
    rw [show ilog q = 52 + (ilog q - 52) by ring, pow2_add, show (52 : ℤ) + (ilog q - 52) - 52 = ilog q - 52 by ring]
    congr 1
  have e2 : pow2 (ilog q + 1) = 2 ^ 53 * pow2 (ilog q - 52) := by
    rw [show ilog q + 1 = 53 + (ilog q - 52) by ring, pow2_add]
    congr 1
  have h1' : (2 : ℚ) ^ 52 ≤ (rne (q / pow2 (ilog q - 52)) : ℚ) := by exact_mod_cast h1
  have h2' : (rne (q / pow2 (ilog q - 52)) : ℚ) ≤ 2 ^ 53 := by exact_mod_cast h2
  rw [e1, e2]
  exact ⟨mul_le_mul_of_nonneg_right h1' hu.le, mul_le_mul_of_nonneg_right h2' hu.le⟩

theorem rnd_pos {q : ℚ} (hq : 0 < q) : 0 < rnd q := lt_of_lt_of_le (pow2_pos _) (rnd_bounds hq).1

theorem ilog_mono {a b : ℚ} (ha : 0 < a) (h : a ≤ b) : ilog a ≤ ilog b := by
  have h1 := (ilog_spec ha).1
  have h2 := (ilog_spec (ha.trans_le h)).2
  have : pow2 (ilog a) < pow2 (ilog b + 1) := by linarith
  have := pow2_lt_iff.1 this
  omega

theorem rnd_mono_pos {a b : ℚ} (ha : 0 < a) (h : a ≤ b) : rnd a ≤ rnd b := by
  have hb := ha.trans_le h
  rcases eq_or_lt_of_le (ilog_mono ha h) with e | l
  · rw [rnd_pos_eq ha, rnd_pos_eq hb, e]
    have hu := pow2_pos (ilog b - 52)
    have := rne_mono (div_le_div_of_nonneg_right h hu.le)
    exact mul_le_mul_of_nonneg_right (by exact_mod_cast this) hu.le
  · exact ((rnd_bounds ha).2.trans (pow2_le (by omega))).trans (rnd_bounds hb).1

/-- Float64 rounding is monotone. -/
theorem rnd_mono {a b : ℚ} (h : a ≤ b) : rnd a ≤ rnd b := by
  rcases lt_trichotomy a 0 with ha | ha | ha
  · rcases lt_trichotomy b 0 with hb | hb | hb
    · have := rnd_mono_pos (neg_pos.2 hb) (neg_le_neg h)
      rw [rnd_neg, rnd_neg] at this; linarith
    · have := rnd_pos (neg_pos.2 ha)
      rw [rnd_neg] at this; rw [hb, rnd_zero]; linarith
    · have h1 := rnd_pos (neg_pos.2 ha)
      rw [rnd_neg] at h1
      have := rnd_pos hb; linarith
  · rcases eq_or_lt_of_le h with e | l
    · rw [e]
    · rw [ha] at l ⊢; rw [rnd_zero]; exact (rnd_pos l).le
  · exact rnd_mono_pos ha h

/-- Relative error of rounding: at most `2^-53`. -/
theorem rnd_err (q : ℚ) : |rnd q - q| ≤ |q| / 2 ^ 53 := by
  have key : ∀ q : ℚ, 0 < q → |rnd q - q| ≤ |q| / 2 ^ 53 := by
    intro q hq
    rw [rnd_pos_eq hq]
    have hu := pow2_pos (ilog q - 52)
    set u := pow2 (ilog q - 52)
    have h0 : (rne (q / u) : ℚ) * u - q = ((rne (q / u) : ℚ) - q / u) * u := by
      rw [sub_mul, div_mul_cancel₀ _ hu.ne']
    rw [h0, abs_mul, abs_of_pos hu]
    have h1 := rne_err (q / u)
    have h2 := (scaled hq).1
    rw [le_div_iff₀ hu] at h2
    rw [abs_of_pos hq, le_div_iff₀ (by positivity)]
    nlinarith
  rcases lt_trichotomy q 0 with h | h | h
  · have := key (-q) (neg_pos.2 h)
    rw [rnd_neg, abs_neg] at this
    rw [show rnd q - q = -(-rnd q - -q) by ring, abs_neg]; exact this
  · simp [h, rnd_zero]
  · exact key q h

/-- Numbers with a significand of at most 53 bits are represented exactly. -/
theorem rnd_exact (m : ℤ) (e : ℤ) (hm : |m| ≤ 2 ^ 53) : rnd (m * pow2 e) = m * pow2 e := by
  have key : ∀ m : ℤ, 0 < m → m ≤ 2 ^ 53 → rnd (m * pow2 e) = m * pow2 e := by
    intro m h0 h1
    have hm0 : (0 : ℚ) < m := by exact_mod_cast h0
    have hq : (0 : ℚ) < m * pow2 e := mul_pos hm0 (pow2_pos e)
    rw [rnd_pos_eq hq]
    have hsp := (ilog_spec hq).1
    set L := ilog ((m : ℚ) * pow2 e)
    have hm1 : (m : ℚ) ≤ pow2 53 := by
      rw [pow2_eq]; exact_mod_cast h1
    have hL : L ≤ 53 + e := by
      have : pow2 L < pow2 (53 + e + 1) := by
        calc pow2 L ≤ m * pow2 e := hsp
          _ ≤ pow2 53 * pow2 e := mul_le_mul_of_nonneg_right hm1 (pow2_pos e).le
          _ = pow2 (53 + e) := (pow2_add _ _).symm
          _ < _ := pow2_lt_iff.2 (by omega)
      have := pow2_lt_iff.1 this; omega
    by_cases hc : L = 53 + e
    · -- then m = 2^53
      have hmm : (m : ℚ) = pow2 53 := by
        refine le_antisymm hm1 ?_
        rw [hc, pow2_add] at hsp
        exact le_of_mul_le_mul_right hsp (pow2_pos e)
      have hq2 : (m : ℚ) * pow2 e / pow2 (L - 52) = ((2 ^ 52 : ℤ) : ℚ) := by
        rw [hmm, hc, ← pow2_add, div_eq_iff (pow2_pos _).ne',
          show (53 : ℤ) + e = 52 + (53 + e - 52) by ring, pow2_add,
          show (52 : ℤ) + (53 + e - 52) - 52 = 53 + e - 52 by ring]
        congr 1
      rw [hq2, rne_int, ← hq2, div_mul_cancel₀ _ (pow2_pos _).ne']
    · have hk : ∃ k : ℕ, e = (L - 52) + k := ⟨(e - (L - 52)).toNat, by omega⟩
      obtain ⟨k, hk⟩ := hk
      have hq2 : (m : ℚ) * pow2 e / pow2 (L - 52) = ((m * 2 ^ k : ℤ) : ℚ) := by
        rw [div_eq_iff (pow2_pos _).ne', hk, pow2_add]
        rw [pow2_eq (k : ℤ), zpow_natCast]; push_cast; ring
      rw [hq2, rne_int, ← hq2, div_mul_cancel₀ _ (pow2_pos _).ne']
  rcases lt_trichotomy m 0 with h | h | h
  · have := key (-m) (by omega) (by rw [abs_of_neg h] at hm; exact hm)
    rw [Int.cast_neg, neg_mul, rnd_neg] at this
    linarith
  · simp [h, rnd_zero]
  · exact key m h (by rw [abs_of_pos h] at hm; exact hm)

theorem rnd_int (m : ℤ) (hm : |m| ≤ 2 ^ 53) : rnd m = m := by
  have := rnd_exact m 0 hm
  rw [show pow2 0 = 1 by rw [pow2_eq]; norm_num, mul_one] at this
  exact this

/-- Rounding gives a representable number: rounding again changes nothing. -/
theorem rnd_idem (q : ℚ) : rnd (rnd q) = rnd q := by
  have key : ∀ q : ℚ, 0 < q → rnd (rnd q) = rnd q := by
    intro q hq
    rw [rnd_pos_eq hq]
    obtain ⟨h1, h2⟩ := rne_scaled hq
    refine rnd_exact _ _ ?_
    rw [abs_of_nonneg (by linarith [show (0:ℤ) < 2 ^ 52 by norm_num])]; exact h2
  rcases lt_trichotomy q 0 with h | h | h
  · have := key (-q) (neg_pos.2 h)
    rw [rnd_neg, rnd_neg] at this; linarith
  · simp [h, rnd_zero]
  · exact key q h

/-- A float64 value (exponent range apart). -/
def IsF (q : ℚ) : Prop := ∃ m e : ℤ, |m| ≤ 2 ^ 53 ∧ q = m * pow2 e

theorem IsF.rnd_eq {q : ℚ} (h : IsF q) : rnd q = q := by
  obtain ⟨m, e, hm, rfl⟩ := h; exact rnd_exact m e hm

theorem isF_rnd (q : ℚ) : IsF (rnd q) := by
  have key : ∀ q : ℚ, 0 < q → IsF (rnd q) := by
    intro q hq
    rw [rnd_pos_eq hq]
    obtain ⟨h1, h2⟩ := rne_scaled hq
    exact ⟨_, _, by rw [abs_of_nonneg (by linarith [show (0:ℤ) < 2 ^ 52 by norm_num])]; exact h2, rfl⟩
  rcases lt_trichotomy q 0 with h | h | h
  · obtain ⟨m, e, hm, h'⟩ := key (-q) (neg_pos.2 h)
    refine ⟨-m, e, by rwa [abs_neg], ?_⟩
    rw [rnd_neg] at h'; push_cast; linarith
  · exact ⟨0, 0, by norm_num, by simp [h, rnd_zero]⟩
  · exact key q h

theorem IsF.mul_pow2 {q : ℚ} (h : IsF q) (k : ℤ) : IsF (q * pow2 k) := by
  obtain ⟨m, e, hm, rfl⟩ := h
  exact ⟨m, e + k, hm, by rw [pow2_add]; ring⟩

theorem IsF.div256 {q : ℚ} (h : IsF q) : IsF (q / 256) := by
  have := h.mul_pow2 (-8)
  rwa [show pow2 (-8) = 1 / 256 by decide +kernel, mul_one_div] at this

theorem IsF.mul256 {q : ℚ} (h : IsF q) : IsF (q * 256) := by
  have := h.mul_pow2 8
  rwa [show pow2 8 = 256 by decide +kernel] at this

theorem isF_int (m : ℤ) (hm : |m| ≤ 2 ^ 53) : IsF m :=
  ⟨m, 0, hm, by rw [show pow2 0 = 1 by decide +kernel, mul_one]⟩

/-- The fractional part of a non-negative float64 value is a float64 value. -/
theorem IsF.frac {q : ℚ} (h : IsF q) (h0 : 0 ≤ q) : IsF (q - ⌊q⌋) := by
  obtain ⟨m, e, hm, rfl⟩ := h
  have hm0 : 0 ≤ m := by
    by_contra hc
    have : (m : ℚ) * pow2 e < 0 := mul_neg_of_neg_of_pos (by exact_mod_cast (not_le.mp hc)) (pow2_pos e)
    linarith
  rw [abs_of_nonneg hm0] at hm
  by_cases he : 0 ≤ e
  · have : (m : ℚ) * pow2 e = ((m * 2 ^ e.toNat : ℤ) : ℚ) := by
      simp [pow2, he]
    rw [this, Int.floor_intCast, sub_self]
    exact ⟨0, 0, by norm_num, by simp⟩
  · set d : ℕ := (-e).toNat
    have hp : pow2 e = 1 / ((2 ^ d : ℕ) : ℚ) := by simp [pow2, he, d]
    have hd : (0 : ℚ) < ((2 ^ d : ℕ) : ℚ) := by positivity
    have hfl : ⌊(m : ℚ) * pow2 e⌋ = m / (2 ^ d : ℕ) := by
      rw [hp, mul_one_div]
      have := Int.floor_div_natCast (m : ℚ) (2 ^ d)
      rw [Int.floor_intCast] at this
      exact this
    refine ⟨m % (2 ^ d : ℕ), e, ?_, ?_⟩
    · have h1 := Int.emod_nonneg m (show ((2 ^ d : ℕ) : ℤ) ≠ 0 by positivity)
      have h2 : m % ((2 ^ d : ℕ) : ℤ) ≤ m := by
        have a := Int.mul_ediv_add_emod m (2 ^ d : ℕ)
        have b : 0 ≤ m / ((2 ^ d : ℕ) : ℤ) := Int.ediv_nonneg hm0 (by positivity)
        have c : (0 : ℤ) ≤ ((2 ^ d : ℕ) : ℤ) := by positivity
        have := mul_nonneg c b
        omega
      rw [abs_of_nonneg h1]; omega
    · rw [hfl, hp]
      have hmod : (m : ℚ) = ((2 ^ d : ℕ) : ℚ) * ((m / (2 ^ d : ℕ) : ℤ) : ℚ) + ((m % (2 ^ d : ℕ) : ℤ) : ℚ) := by
        exact_mod_cast (Int.mul_ediv_add_emod m (2 ^ d : ℕ)).symm
      field_simp
      linarith

end Verif.F64
