import Verif.Model.GoBase
import Mathlib.Tactic.Ring
import Mathlib.Tactic.Linarith
import Mathlib.Tactic.IntervalCases

/-! Lemmas about the decimal printing / parsing functions of `Model/GoBase.lean`. -/
namespace Verif.Go

theorem digit_cases {c : Char} (h : c.isDigit = true) :
    c ∈ ['0', '1', '2', '3', '4', '5', '6', '7', '8', '9'] := by
  simp only [Char.isDigit, Bool.and_eq_true, decide_eq_true_eq] at h
  obtain ⟨h1, h2⟩ := h
  have a : 48 ≤ c.val.toNat := by simpa using UInt32.le_iff_toNat_le.mp h1
  have b : c.val.toNat ≤ 57 := by simpa using UInt32.le_iff_toNat_le.mp h2
  have hc : c = Char.ofNat c.val.toNat := by
    have := Char.ofNat_toNat c
    exact this.symm
  rw [hc]
  generalize c.val.toNat = n at a b
  interval_cases n <;> decide

theorem digit_props {c : Char} (h : c.isDigit = true) :
    ∃ d, digitVal c = some d ∧ d < 10 ∧ c ≠ '_' ∧ c ≠ '/' ∧ c ≠ '-' ∧ c ≠ '+' ∧ c ≠ ',' ∧ c ≠ ' ' ∧ c ≠ '.' ∧ c ≠ '@' := by
  have := digit_cases h
  simp only [List.mem_cons, List.not_mem_nil, or_false] at this
  rcases this with h | h | h | h | h | h | h | h | h | h <;> subst h <;> exact ⟨_, rfl, by decide⟩

theorem digitVal_digitChar : ∀ d, d < 10 → digitVal (Nat.digitChar d) = some d ∧ Nat.digitChar d ≠ '_' := by decide

theorem parseDigits_toDigits (b0 : Bool) (n : Nat) : n < 18446744073709551616 → ∀ rest,
    parseDigits b0 10 (Nat.toDigits 10 n ++ rest) 0 = parseDigits b0 10 rest n := by
  induction n using Nat.strong_induction_on with
  | _ n ih =>
    intro hn rest
    rw [Nat.toDigits_eq_if (by norm_num)]
    split
    · rename_i h
      obtain ⟨h1, h2⟩ := digitVal_digitChar n h
      simp only [List.cons_append, List.nil_append, parseDigits]
      rw [if_neg (by simp [h2])]
      simp [h1]
      rw [if_neg (by omega), if_neg (by omega)]
    · rename_i h
      have hd : n % 10 < 10 := Nat.mod_lt _ (by norm_num)
      obtain ⟨h1, h2⟩ := digitVal_digitChar (n % 10) hd
      rw [List.append_assoc, ih (n / 10) (by omega) (by omega)]
      simp only [List.cons_append, List.nil_append, parseDigits]
      rw [if_neg (by simp [h2])]
      simp [h1]
      have : n / 10 * 10 + n % 10 = n := by omega
      rw [if_neg (by omega), this, if_neg (by omega)]

theorem toDigits_isDigit {n : Nat} {c : Char} (h : c ∈ Nat.toDigits 10 n) : c.isDigit = true :=
  Nat.isDigit_of_mem_toDigits (by norm_num) (by norm_num) h

theorem toDigits_head (n : Nat) : 0 < n → ∃ c cs, Nat.toDigits 10 n = c :: cs ∧ c ≠ '0' ∧ c.isDigit = true := by
  induction n using Nat.strong_induction_on with
  | _ n ih =>
    intro hn
    rw [Nat.toDigits_eq_if (by norm_num)]
    split
    · rename_i h
      refine ⟨_, [], rfl, ?_⟩
      interval_cases n <;> decide
    · rename_i h
      obtain ⟨c, cs, h1, h2, h3⟩ := ih (n / 10) (by omega) (by omega)
      exact ⟨c, cs ++ _, by rw [h1]; rfl, h2, h3⟩

theorem basePrefix_toDigits (n : Nat) : (basePrefix (Nat.toDigits 10 n) = (10, Nat.toDigits 10 n) ∧ 0 < n) ∨
    (n = 0 ∧ basePrefix (Nat.toDigits 10 n) = (8, [])) := by
  rcases Nat.eq_zero_or_pos n with h | h
  · right; subst h; exact ⟨rfl, by decide⟩
  · left
    obtain ⟨c, cs, h1, h2, h3⟩ := toDigits_head n h
    refine ⟨?_, h⟩
    rw [h1]
    unfold basePrefix
    split
    · rename_i heq; simp at heq; exact absurd heq.1 h2
    · rename_i heq; simp at heq; exact absurd heq.1 h2
    · rfl

theorem parseUint_toDigits (n : Nat) (hn : n < 18446744073709551616) :
    parseUint (Nat.toDigits 10 n) 0 = .ok n := by
  unfold parseUint
  rw [if_neg Nat.toDigits_ne_nil]
  rcases basePrefix_toDigits n with ⟨h, hp⟩ | ⟨h, hp⟩
  · simp only [if_true, h]
    have := parseDigits_toDigits true n hn []
    rw [List.append_nil] at this
    simp only [beq_self_eq_true, this, parseDigits]
    rw [if_neg]
    intro ⟨_, h2, _⟩
    exact Nat.underscore_not_in_toDigits h2
  · subst h; simp only [if_true, hp]; simp [parseDigits]

theorem parseUint_toDigits_10 (n : Nat) (hn : n < 18446744073709551616) :
    parseUint (Nat.toDigits 10 n) 10 = .ok n := by
  unfold parseUint
  rw [if_neg Nat.toDigits_ne_nil]
  have := parseDigits_toDigits false n hn []
  rw [List.append_nil] at this
  simp [this, parseDigits]

theorem parseInt_itoa (n : Int) (h : IsI64 n) : parseInt (itoa n) 0 = .ok n := by
  unfold IsI64 at h
  unfold itoa
  split
  · rename_i hneg
    unfold parseInt
    rw [if_neg (by simp)]
    simp only [parseUint_toDigits n.natAbs (by omega)]
    simp
    rw [if_neg (by omega)]
    congr 1
    rw [abs_of_neg hneg, neg_neg]
  · rename_i hneg
    unfold parseInt
    rw [if_neg Nat.toDigits_ne_nil]
    have hfst : ∃ c cs, Nat.toDigits 10 n.natAbs = c :: cs := by
      cases hh : Nat.toDigits 10 n.natAbs with
      | nil => exact absurd hh Nat.toDigits_ne_nil
      | cons c cs => exact ⟨c, cs, rfl⟩
    obtain ⟨c, cs, hc⟩ := hfst
    have hd : c.isDigit = true := toDigits_isDigit (n := n.natAbs) (by rw [hc]; simp)
    obtain ⟨_, _, _, _, _, hm, hp, _⟩ := digit_props hd
    have hu := parseUint_toDigits n.natAbs (by omega)
    rw [hc] at hu ⊢
    split
    rename_i neg ds heq
    split at heq
    · rename_i h2; simp at h2; exact absurd h2.1 hp
    · rename_i h2; simp at h2; exact absurd h2.1 hm
    · simp at heq
      obtain ⟨rfl, rfl⟩ := heq
      simp only [hu]
      simp
      rw [if_neg (by omega)]
      congr 1
      rw [abs_of_nonneg (by omega)]

theorem parseInt_itoa_10 (n : Int) (h : IsI64 n) : parseInt (itoa n) 10 = .ok n := by
  unfold IsI64 at h
  unfold itoa
  split
  · rename_i hneg
    unfold parseInt
    rw [if_neg (by simp)]
    simp only [parseUint_toDigits_10 n.natAbs (by omega)]
    simp
    rw [if_neg (by omega)]
    congr 1
    rw [abs_of_neg hneg, neg_neg]
  · rename_i hneg
    unfold parseInt
    rw [if_neg Nat.toDigits_ne_nil]
    have hfst : ∃ c cs, Nat.toDigits 10 n.natAbs = c :: cs := by
      cases hh : Nat.toDigits 10 n.natAbs with
      | nil => exact absurd hh Nat.toDigits_ne_nil
      | cons c cs => exact ⟨c, cs, rfl⟩
    obtain ⟨c, cs, hc⟩ := hfst
    have hd : c.isDigit = true := toDigits_isDigit (n := n.natAbs) (by rw [hc]; simp)
    obtain ⟨_, _, _, _, _, hm, hp, _⟩ := digit_props hd
    have hu := parseUint_toDigits_10 n.natAbs (by omega)
    rw [hc] at hu ⊢
    split
    rename_i neg ds heq
    split at heq
    · rename_i h2; simp at h2; exact absurd h2.1 hp
    · rename_i h2; simp at h2; exact absurd h2.1 hm
    · simp at heq
      obtain ⟨rfl, rfl⟩ := heq
      simp only [hu]
      simp
      rw [if_neg (by omega)]
      congr 1
      rw [abs_of_nonneg (by omega)]

theorem parseInt0_itoa (n : Int) (h : IsI64 n) : parseInt0 (itoa n) = n := by
  unfold parseInt0; rw [parseInt_itoa n h]

theorem split_no_sep (sep : Char) : ∀ a, sep ∉ a → split sep a = [a]
  | [], _ => rfl
  | c :: cs, h => by
    rw [split, split_no_sep sep cs (fun hc => h (by simp [hc]))]
    simp only
    rw [if_neg]; rintro rfl; exact h (by simp)

theorem split_ne_nil (sep : Char) : ∀ a, split sep a ≠ []
  | [] => by simp [split]
  | c :: cs => by
    rw [split]
    split
    · simp
    · split <;> simp

theorem split_append (sep : Char) : ∀ a b, sep ∉ a → split sep (a ++ sep :: b) = a :: split sep b
  | [], b, _ => by
    rw [List.nil_append, split]
    split
    · rename_i h; exact absurd h (split_ne_nil sep b)
    · rename_i h; rw [h]; simp
  | c :: cs, b, h => by
    rw [List.cons_append, split, split_append sep cs b (fun hc => h (by simp [hc]))]
    simp only
    rw [if_neg]; rintro rfl; exact h (by simp)

theorem itoa_nonneg_isDigit {n : Int} (h : 0 ≤ n) {c : Char} (hc : c ∈ itoa n) : c.isDigit = true := by
  unfold itoa at hc
  rw [if_neg (by omega)] at hc
  exact toDigits_isDigit hc

theorem itoa_mem {n : Int} {c : Char} (hc : c ∈ itoa n) : c.isDigit = true ∨ c = '-' := by
  unfold itoa at hc
  split at hc
  · rw [List.mem_cons] at hc
    rcases hc with h | h
    · exact Or.inr h
    · exact Or.inl (toDigits_isDigit h)
  · exact Or.inl (toDigits_isDigit hc)

theorem slash_notin_itoa (n : Int) : '/' ∉ itoa n := by
  intro h
  rcases itoa_mem h with h | h
  · exact absurd h (by decide)
  · exact absurd h (by decide)

theorem dash_notin_itoa {n : Int} (hn : 0 ≤ n) : '-' ∉ itoa n := by
  intro h; exact absurd (itoa_nonneg_isDigit hn h) (by decide)

theorem u64_i64 (n : Nat) (h : IsU64 n) : u64 (i64 n) = n := by
  unfold IsU64 at h
  unfold u64 i64
  rw [Int.bmod_def]
  split <;> omega

theorem i64_isI64 (n : Int) : IsI64 (i64 n) := by
  unfold IsI64 i64
  rw [Int.bmod_def]
  split <;> omega

end Verif.Go
