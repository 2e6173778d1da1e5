import Verif.Model.GoFloat
import Verif.Proof.Strconv
import Mathlib.Tactic

namespace Verif.F64

theorem rne_err (q : ℚ) : |(rne q : ℚ) - q| ≤ 1 / 2 := by
  have a := Int.floor_le q
  have b := Int.lt_floor_add_one q
  unfold rne
  dsimp only
  rw [abs_le]
  split_ifs with h1 h2 h3
  · constructor <;> linarith
  · push_cast; constructor <;> linarith
  · constructor <;> linarith
  · push_cast; constructor <;> linarith

theorem rne_nonneg {q : ℚ} (h : 0 ≤ q) : 0 ≤ rne q := by
  have : 0 ≤ ⌊q⌋ := Int.floor_nonneg.mpr h
  unfold rne
  dsimp only
  split_ifs <;> omega

theorem rne_int (n : ℤ) : rne (n : ℚ) = n := by
  unfold rne
  simp [Int.floor_intCast]

end Verif.F64

namespace Verif.Go

theorem digitChar_isDigit : ∀ d, d < 10 → (Nat.digitChar d).isDigit = true ∧
    (Nat.digitChar d).toNat - 48 = d := by decide

theorem digitsPad_isDigit : ∀ (k n : Nat) (c : Char), c ∈ digitsPad k n → c.isDigit = true
  | 0, _, _, h => by simp [digitsPad] at h
  | k + 1, n, c, h => by
    simp only [digitsPad, List.mem_append, List.mem_singleton] at h
    rcases h with h | rfl
    · exact digitsPad_isDigit k _ c h
    · exact (digitChar_isDigit _ (Nat.mod_lt _ (by norm_num))).1

theorem digitsPad_length : ∀ (k n : Nat), (digitsPad k n).length = k
  | 0, _ => rfl
  | k + 1, n => by simp [digitsPad, digitsPad_length k]

theorem digitsVal_snoc (a : List Char) (c : Char) :
    digitsVal (a ++ [c]) = digitsVal a * 10 + (c.toNat - 48) := by
  simp [digitsVal]

theorem foldl_digits (l : List Char) (n : Nat) :
    l.foldl (fun n c => n * 10 + (c.toNat - 48)) n = n * 10 ^ l.length + digitsVal l := by
  induction l using List.reverseRecOn with
  | nil => simp [digitsVal]
  | append_singleton l c ih =>
    rw [List.foldl_append, ih, digitsVal_snoc]
    simp [pow_succ]
    ring

theorem digitsVal_append (a b : List Char) :
    digitsVal (a ++ b) = digitsVal a * 10 ^ b.length + digitsVal b := by
  unfold digitsVal
  rw [List.foldl_append, foldl_digits]
  rfl

theorem digitsVal_pad : ∀ (k n : Nat), n < 10 ^ k → digitsVal (digitsPad k n) = n
  | 0, n, h => by simp at h; subst h; rfl
  | k + 1, n, h => by
    rw [digitsPad, digitsVal_snoc, digitsVal_pad k (n / 10) (by
      rw [Nat.div_lt_iff_lt_mul (by norm_num)]; rw [pow_succ] at h; exact h),
      (digitChar_isDigit (n % 10) (Nat.mod_lt _ (by norm_num))).2]
    omega

theorem digitsVal_toDigits (n : Nat) : digitsVal (Nat.toDigits 10 n) = n := by
  induction n using Nat.strongRecOn with
  | _ n ih =>
    by_cases h : n < 10
    · rw [Nat.toDigits_of_lt_base h]
      simp [digitsVal, (digitChar_isDigit n h).2]
    · rw [Nat.toDigits_of_base_le (by norm_num) (by omega), digitsVal_snoc, ih (n / 10) (by omega),
        (digitChar_isDigit (n % 10) (Nat.mod_lt _ (by norm_num))).2]
      omega

theorem spanDigits_run : ∀ (a r : List Char), (∀ c ∈ a, c.isDigit = true) →
    (∀ c ∈ r.head?, c.isDigit = false) → spanDigits (a ++ r) = (a, r)
  | [], [], _, _ => rfl
  | [], c :: r, _, h => by
    have := h c (by simp)
    simp [spanDigits, this]
  | c :: a, r, h, hr => by
    simp [spanDigits, h c (by simp), spanDigits_run a r (fun c hc => h c (by simp [hc])) hr]

theorem toDigits_ne_nil (n : Nat) : Nat.toDigits 10 n ≠ [] := by
  intro h
  have := digitsVal_toDigits n
  rcases Nat.eq_zero_or_pos n with h0 | h0
  · subst h0; revert h; decide
  · rw [h] at this; simp [digitsVal] at this; omega

/-- The decimal text of a natural number with a fraction parses to the fraction it denotes. -/
theorem parseUFloat_decimal (p n : Nat) :
    parseUFloat (Nat.toDigits 10 (n / 10 ^ p) ++ ['.'] ++ digitsPad p (n % 10 ^ p))
      = some ((n : ℚ) / (10 ^ p : ℕ)) := by
  have h1 : spanDigits (Nat.toDigits 10 (n / 10 ^ p) ++ ['.'] ++ digitsPad p (n % 10 ^ p))
      = (Nat.toDigits 10 (n / 10 ^ p), '.' :: digitsPad p (n % 10 ^ p)) := by
    rw [List.append_assoc]
    exact spanDigits_run _ _ (fun c hc => toDigits_isDigit hc) (by simp)
  have h2 : spanDigits (digitsPad p (n % 10 ^ p)) = (digitsPad p (n % 10 ^ p), []) := by
    have := spanDigits_run (digitsPad p (n % 10 ^ p)) [] (digitsPad_isDigit p _) (by simp)
    simpa using this
  have hpos : 0 < 10 ^ p := Nat.pow_pos (by norm_num)
  unfold parseUFloat
  simp only [h1, h2, toDigits_ne_nil, false_and, if_false, parseExp, digitsVal_append,
    digitsPad_length, digitsVal_toDigits, digitsVal_pad p _ (Nat.mod_lt n hpos)]
  congr 1
  rw [zpow_zero, mul_one]
  congr 1
  exact_mod_cast Nat.div_add_mod' n (10 ^ p)

/-- Specification: the decimal with `p` digits nearest to `q` (ties to even, symmetric in sign). -/
def roundDec (p : Nat) (q : ℚ) : ℚ :=
  (if q < 0 then -1 else 1) * ((F64.rne (|q| * (10 ^ p : ℕ)) : ℤ) : ℚ) / (10 ^ p : ℕ)

theorem roundDec_err (p : Nat) (q : ℚ) : |roundDec p q - q| ≤ 1 / 2 / (10 ^ p : ℕ) := by
  have hp : (0 : ℚ) < (10 ^ p : ℕ) := by positivity
  have h := F64.rne_err (|q| * (10 ^ p : ℕ))
  unfold roundDec
  generalize F64.rne (|q| * (10 ^ p : ℕ)) = m at h
  generalize ((10 ^ p : ℕ) : ℚ) = P at h hp
  have e : (if q < 0 then -1 else 1) * (m : ℚ) / P - q
      = ((if q < 0 then -1 else 1) * (m : ℚ) - q * P) / P := by field_simp
  rw [e, abs_div, abs_of_pos hp]
  refine div_le_div_of_nonneg_right ?_ hp.le
  split_ifs with hq
  · rw [abs_of_neg hq] at h
    rw [abs_le] at h ⊢
    constructor <;> linarith
  · rw [abs_of_nonneg (not_lt.mp hq)] at h
    simpa using h

theorem spanSign_of_digit {s : List Char} (h : ∀ c ∈ s.head?, c.isDigit = true) :
    spanSign s = (false, s) := by
  cases s with
  | nil => rfl
  | cons c s =>
    have hc := h c (by simp)
    have h1 : c ≠ '+' := by rintro rfl; revert hc; decide
    have h2 : c ≠ '-' := by rintro rfl; revert hc; decide
    unfold spanSign
    split
    · simp_all
    · simp_all
    · rfl

/-- `ParseFloat` of `FormatFloat(q,'f',p)` is the rounding of the nearest `p`-digit decimal. -/
theorem parseFloat_formatF (rnd : ℚ → ℚ) (p : Nat) (q : ℚ) :
    parseFloat rnd (formatF p q) = some (rnd (roundDec p q)) := by
  have hn : ((F64.rne (|q| * (10 ^ p : ℕ))).toNat : ℤ) = F64.rne (|q| * (10 ^ p : ℕ)) :=
    Int.toNat_of_nonneg (F64.rne_nonneg (by positivity))
  have hn' : (((F64.rne (|q| * (10 ^ p : ℕ))).toNat : ℕ) : ℚ)
      = ((F64.rne (|q| * (10 ^ p : ℕ)) : ℤ) : ℚ) := by exact_mod_cast hn
  unfold formatF roundDec
  dsimp only
  generalize F64.rne (|q| * (10 ^ p : ℕ)) = m at hn hn'
  split_ifs with hq
  · simp only [parseFloat, List.cons_append, List.nil_append, spanSign]
    rw [parseUFloat_decimal]
    simp only [if_true, hn']
    congr 2
    ring
  · simp only [List.nil_append]
    have hs : spanSign (Nat.toDigits 10 (m.toNat / 10 ^ p) ++ ['.'] ++
        digitsPad p (m.toNat % 10 ^ p)) = (false, Nat.toDigits 10 (m.toNat / 10 ^ p) ++ ['.'] ++
        digitsPad p (m.toNat % 10 ^ p)) := by
      apply spanSign_of_digit
      intro c hc
      cases hd : Nat.toDigits 10 (m.toNat / 10 ^ p) with
      | nil => exact absurd hd (toDigits_ne_nil _)
      | cons a t =>
        rw [hd] at hc
        simp at hc
        subst hc
        exact toDigits_isDigit (n := m.toNat / 10 ^ p) (by rw [hd]; simp)
    simp only [parseFloat, hs]
    rw [parseUFloat_decimal]
    simp only [Bool.false_eq_true, if_false, hn', one_mul]

theorem trimSpace_id {s : List Char} (h : ∀ c ∈ s, isTrim c = false) : trimSpace s = s := by
  have : ∀ l : List Char, (∀ c ∈ l, isTrim c = false) → l.dropWhile isTrim = l := by
    intro l hl
    cases l with
    | nil => rfl
    | cons a t => simp [hl a (by simp)]
  unfold trimSpace
  rw [this s h, this s.reverse (by simpa using h), List.reverse_reverse]

theorem split_join (sep : Char) : ∀ l : List (List Char), l ≠ [] → (∀ a ∈ l, sep ∉ a) →
    split sep (join sep l) = l
  | [], h, _ => absurd rfl h
  | [a], _, h => by simpa [join] using split_no_sep sep a (h a (by simp))
  | a :: b :: r, _, h => by
    rw [join, split_append sep a _ (h a (by simp)),
      split_join sep (b :: r) (by simp) (fun x hx => h x (by simp [hx]))]

theorem isDigit_not_special {c : Char} (h : c.isDigit = true) :
    c ≠ ',' ∧ isTrim c = false ∧ c ≠ '.' ∧ c ≠ '-' := by
  refine ⟨?_, ?_, ?_, ?_⟩
  · rintro rfl; revert h; decide
  · unfold isTrim
    have hc := digit_cases h
    simp only [List.mem_cons, List.not_mem_nil, or_false] at hc
    rcases hc with rfl | rfl | rfl | rfl | rfl | rfl | rfl | rfl | rfl | rfl <;> decide
  · rintro rfl; revert h; decide
  · rintro rfl; revert h; decide

theorem formatF_chars {p : Nat} {q : ℚ} {c : Char} (h : c ∈ formatF p q) :
    c.isDigit = true ∨ c = '-' ∨ c = '.' := by
  unfold formatF at h
  simp only [List.mem_append, List.mem_singleton] at h
  rcases h with ((h | h) | h) | h
  · split_ifs at h
    · simp at h; exact Or.inr (Or.inl h)
    · simp at h
  · exact Or.inl (toDigits_isDigit h)
  · exact Or.inr (Or.inr h)
  · exact Or.inl (digitsPad_isDigit _ _ _ h)

theorem formatF_plain {p : Nat} {q : ℚ} : ',' ∉ formatF p q ∧ ∀ c ∈ formatF p q, isTrim c = false := by
  refine ⟨fun h => ?_, fun c h => ?_⟩
  · rcases formatF_chars h with h | h | h
    · exact (isDigit_not_special h).1 rfl
    · revert h; decide
    · revert h; decide
  · rcases formatF_chars h with h | rfl | rfl
    · exact (isDigit_not_special h).2.1
    · decide
    · decide

theorem itoa_plain {n : Int} : ',' ∉ itoa n ∧ ∀ c ∈ itoa n, isTrim c = false := by
  refine ⟨fun h => ?_, fun c h => ?_⟩
  · rcases itoa_mem h with h | h
    · exact (isDigit_not_special h).1 rfl
    · revert h; decide
  · rcases itoa_mem h with h | rfl
    · exact (isDigit_not_special h).2.1
    · decide

end Verif.Go
