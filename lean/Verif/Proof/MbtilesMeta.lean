import Verif.Spec.Mbtiles
import Verif.Proof.Numeral
import Verif.Proof.Mbtiles

/-!
# Lemmas: decimal numerals, lists of numerals, last rows
-/
namespace Verif.Mbtiles
open Verif.Go

theorem digit_range (c : Char) : ('0' ≤ c ∧ c ≤ '9') ↔ c.isDigit = true := by
  rw [Num.char_le, Num.char_le]
  unfold Char.isDigit
  simp only [Bool.and_eq_true, decide_eq_true_eq]
  rw [ge_iff_le, UInt32.le_iff_toNat_le, UInt32.le_iff_toNat_le]
  rfl

theorem digits10 (s : List Char) : Digits10 s ↔ ∀ c ∈ s, c.isDigit = true := by
  unfold Digits10
  simp only [digit_range]

theorem value10_eq (s : List Char) : value10 s = digitsVal s := by
  unfold value10 digitsVal
  have : ∀ n : Nat, s.foldl (fun n c => 10 * n + (c.toNat - '0'.toNat)) n = s.foldl (fun n c => n * 10 + (c.toNat - 48)) n := by
    induction s with
    | nil => intro n; rfl
    | cons c s ih =>
      intro n
      rw [List.foldl_cons, List.foldl_cons, ih, Nat.mul_comm]
      rfl
  exact this 0

theorem digitVal_digit (c : Char) (h : c.isDigit = true) : digitVal c = some (c.toNat - 48) ∧ c.toNat - 48 < 10 := by
  have := digit_cases h
  simp only [List.mem_cons, List.not_mem_nil, or_false] at this
  rcases this with h | h | h | h | h | h | h | h | h | h <;> subst h <;> decide

theorem digitVal_lt (c : Char) (d : Nat) (h : digitVal c = some d) (hd : d < 10) : c.isDigit = true := by
  have h1 := ((Num.digit_val c).1 d (by omega)).1 h
  exact (digit_range c).1 ((Num.under_digit c).1 d h1 hd)

/-! ### Integers -/

theorem parseDigits_10 (ds : List Char) (n : Nat) (hn : n < 18446744073709551616) (h : ∀ c ∈ ds, c.isDigit = true) :
    parseDigits false 10 ds n = if n * 10 ^ ds.length + digitsVal ds < 18446744073709551616 then .ok (n * 10 ^ ds.length + digitsVal ds)
      else .error (.range, 18446744073709551615) := by
  induction ds generalizing n with
  | nil => rw [parseDigits]; simp [digitsVal, hn]
  | cons c ds ih =>
    obtain ⟨h1, h2⟩ := digitVal_digit c (h c (by simp))
    rw [parseDigits, if_neg (by simp), h1]
    simp only
    rw [if_neg (by omega)]
    have e : n * 10 ^ (c :: ds).length + digitsVal (c :: ds) = (n * 10 + (c.toNat - 48)) * 10 ^ ds.length + digitsVal ds := by
      unfold digitsVal
      rw [List.foldl_cons, foldl_digits ds, List.length_cons, Nat.pow_succ]
      unfold digitsVal
      ring
    rw [e]
    by_cases hb : n * 10 + (c.toNat - 48) ≥ 18446744073709551616
    · rw [if_pos hb, if_neg]
      have : 1 ≤ 10 ^ ds.length := Nat.one_le_pow _ _ (by norm_num)
      nlinarith
    · rw [if_neg hb]
      exact ih _ (by omega) (fun c hc => h c (by simp [hc]))

theorem parseDigits_10_bad (ds : List Char) (n : Nat) (h : ¬ ∀ c ∈ ds, c.isDigit = true) : ∃ e, parseDigits false 10 ds n = .error e := by
  induction ds generalizing n with
  | nil => exact absurd (by simp) h
  | cons c ds ih =>
    rw [parseDigits, if_neg (by simp)]
    cases hd : digitVal c with
    | none => exact ⟨_, rfl⟩
    | some d =>
      simp only
      by_cases h1 : d ≥ 10
      · rw [if_pos h1]; exact ⟨_, rfl⟩
      · rw [if_neg h1]
        by_cases h2 : n * 10 + d ≥ 18446744073709551616
        · rw [if_pos h2]; exact ⟨_, rfl⟩
        · rw [if_neg h2]
          refine ih _ (fun hc => h ?_)
          intro x hx
          rcases List.mem_cons.1 hx with rfl | hx
          · exact digitVal_lt x d hd (by omega)
          · exact hc x hx

theorem parseUint_10 (ds : List Char) (hne : ds ≠ []) (h : ∀ c ∈ ds, c.isDigit = true) :
    parseUint ds 10 = if digitsVal ds < 18446744073709551616 then .ok (digitsVal ds) else .error (.range, 18446744073709551615) := by
  unfold parseUint
  rw [if_neg hne]
  simp only [Nat.reduceEqDiff, if_false]
  have := parseDigits_10 ds 0 (by norm_num) h
  rw [show ((10 : Nat) == 0) = false from rfl, this]
  simp only [Nat.zero_mul, Nat.zero_add]
  by_cases hl : digitsVal ds < 18446744073709551616
  · rw [if_pos hl]
    simp
  · rw [if_neg hl]

theorem parseDigits_range (b0 : Bool) (base : Nat) (ds : List Char) (n : Nat) (e : NumError × Nat) (h : parseDigits b0 base ds n = .error e) :
    e = (.syntax, 0) ∨ e = (.range, 18446744073709551615) := by
  induction ds generalizing n with
  | nil => rw [parseDigits] at h; simp at h
  | cons c ds ih =>
    rw [parseDigits] at h
    by_cases hu : c = '_' ∧ b0 = true
    · rw [if_pos hu] at h; exact ih n h
    · rw [if_neg hu] at h
      cases hd : digitVal c with
      | none => rw [hd] at h; simp at h; exact Or.inl h.symm
      | some d =>
        rw [hd] at h
        simp only at h
        by_cases h1 : d ≥ base
        · rw [if_pos h1] at h; simp at h; exact Or.inl h.symm
        · rw [if_neg h1] at h
          by_cases h2 : n * base + d ≥ 18446744073709551616
          · rw [if_pos h2] at h; simp at h; exact Or.inr h.symm
          · rw [if_neg h2] at h; exact ih _ h

/-- A text that is not digits: a syntax error, or out of range. -/
theorem parseUint_10_bad (ds : List Char) (h : ¬ (ds ≠ [] ∧ ∀ c ∈ ds, c.isDigit = true)) :
    parseUint ds 10 = .error (.syntax, 0) ∨ parseUint ds 10 = .error (.range, 18446744073709551615) := by
  unfold parseUint
  by_cases hne : ds = []
  · rw [if_pos hne]; exact Or.inl rfl
  · rw [if_neg hne]
    simp only [Nat.reduceEqDiff, if_false]
    obtain ⟨e, he⟩ := parseDigits_10_bad ds 0 (fun hc => h ⟨hne, hc⟩)
    rw [show ((10 : Nat) == 0) = false from rfl, he]
    rcases parseDigits_range _ _ _ _ _ he with rfl | rfl
    · exact Or.inl rfl
    · exact Or.inr rfl

/-- `ParseInt` after the sign. -/
def finish (neg : Bool) (r : Except (NumError × Nat) Nat) : Res Int :=
  match r with
  | .error _ => .err
  | .ok un => if neg then (if un > 9223372036854775808 then .err else .ok (-(un : Int)))
    else if un ≥ 9223372036854775808 then .err else .ok un

theorem atoi_sign (s : List Char) (neg : Bool) (ds : List Char) (hs : s ≠ [])
    (h : spanSign s = (neg, ds))
    (hr : ∀ n, parseUint ds 10 = .error (.range, n) → 9223372036854775808 < n) :
    atoi s = finish neg (parseUint ds 10) := by
  have e2 : parseInt s 10 = (match parseUint ds 10 with
      | .error (.syntax, _) => .error (.syntax, 0)
      | .error (.range, un) => if ¬ neg ∧ un ≥ 9223372036854775808 then .error (.range, 9223372036854775807)
        else if neg ∧ un > 9223372036854775808 then .error (.range, -9223372036854775808)
        else .ok (if neg then -(un : Int) else un)
      | .ok un => if ¬ neg ∧ un ≥ 9223372036854775808 then .error (.range, 9223372036854775807)
        else if neg ∧ un > 9223372036854775808 then .error (.range, -9223372036854775808)
        else .ok (if neg then -(un : Int) else un)) := by
    unfold parseInt
    rw [if_neg hs]
    split
    rename_i neg' ds' heq
    have e : spanSign s = (neg', ds') := heq
    rw [h] at e
    obtain ⟨rfl, rfl⟩ : neg = neg' ∧ ds = ds' := by simpa using e
    rfl
  unfold atoi
  rw [e2]
  rcases hp : parseUint ds 10 with ⟨⟨⟩, n⟩ | n
  · rfl
  · have hn := hr n hp
    cases neg with
    | false =>
      simp only [Bool.false_eq_true, not_false_eq_true, true_and, finish]
      rw [if_pos (by omega)]
    | true =>
      simp only [not_true_eq_false, false_and, if_false, true_and, finish]
      rw [if_pos (by omega)]
  · cases neg with
    | false =>
      simp only [Bool.false_eq_true, not_false_eq_true, true_and, false_and, if_false, finish]
      by_cases hn : n ≥ 9223372036854775808
      · rw [if_pos hn, if_pos hn]
      · rw [if_neg hn, if_neg hn]
    | true =>
      simp only [not_true_eq_false, false_and, if_false, true_and, finish, if_true]
      by_cases hn : n > 9223372036854775808
      · rw [if_pos hn, if_pos hn]
      · rw [if_neg hn, if_neg hn]

theorem range_val (ds : List Char) (n : Nat) (h : parseUint ds 10 = .error (.range, n)) : 9223372036854775808 < n := by
  by_cases hd : ds ≠ [] ∧ ∀ c ∈ ds, c.isDigit = true
  · rw [parseUint_10 ds hd.1 hd.2] at h
    split at h
    · cases h
    · have : 18446744073709551615 = n := by simpa using h
      omega
  · rcases parseUint_10_bad ds hd with e | e
    · rw [e] at h; simp at h
    · rw [e] at h
      have : 18446744073709551615 = n := by simpa using h
      omega

theorem sign_cases (s : List Char) : ∃ neg ds,
    spanSign s = (neg, ds) ∧
    (s = '+' :: ds ∧ neg = false ∨ s = '-' :: ds ∧ neg = true ∨ s = ds ∧ neg = false ∧ ∀ c, s.head? = some c → c ≠ '+' ∧ c ≠ '-') := by
  unfold spanSign
  split
  · exact ⟨_, _, rfl, Or.inl ⟨rfl, rfl⟩⟩
  · exact ⟨_, _, rfl, Or.inr (Or.inl ⟨rfl, rfl⟩)⟩
  · rename_i h1 h2
    refine ⟨_, _, rfl, Or.inr (Or.inr ⟨rfl, rfl, ?_⟩)⟩
    intro c hc
    obtain ⟨r, rfl⟩ : ∃ r, s = c :: r := by
      cases s with
      | nil => simp at hc
      | cons a r => simp at hc; exact ⟨r, by rw [hc]⟩
    exact ⟨fun e => h1 r (by rw [e]), fun e => h2 r (by rw [e])⟩

/-- `Atoi` reads exactly the decimal integers in the range of int64. -/
theorem atoi_iff (s : List Char) (n : Int) : atoi s = .ok n ↔ IntNumeral s n ∧ -2 ^ 63 ≤ n ∧ n < 2 ^ 63 := by
  constructor
  · intro h
    have hs : s ≠ [] := by rintro rfl; simp [atoi, parseInt] at h
    obtain ⟨neg, ds, hm, hc⟩ := sign_cases s
    rw [atoi_sign s neg ds hs hm (range_val ds)] at h
    have hd : ds ≠ [] ∧ ∀ c ∈ ds, c.isDigit = true := by
      by_contra hd
      rcases parseUint_10_bad ds hd with e | e <;> rw [e] at h <;> simp [finish] at h
    rw [parseUint_10 ds hd.1 hd.2] at h
    by_cases hl : digitsVal ds < 18446744073709551616
    · rw [if_pos hl] at h
      simp only [finish] at h
      cases neg with
      | true =>
        simp only [if_true] at h
        split at h
        · cases h
        · have hn : n = -(digitsVal ds : Int) := by simpa using h.symm
          refine ⟨⟨['-'], -1, ds, ?_, .minus, hd.1, (digits10 ds).2 hd.2, by rw [value10_eq]; omega⟩, by omega, by omega⟩
          rcases hc with ⟨_, h⟩ | ⟨h, _⟩ | ⟨_, h, _⟩
          · cases h
          · exact h
          · cases h
      | false =>
        simp only [Bool.false_eq_true, if_false] at h
        split at h
        · cases h
        · have hn : n = (digitsVal ds : Int) := by simpa using h.symm
          rcases hc with ⟨h, _⟩ | ⟨_, h⟩ | ⟨h, _, _⟩
          · exact ⟨⟨['+'], 1, ds, h, .plus, hd.1, (digits10 ds).2 hd.2, by rw [value10_eq]; omega⟩, by omega, by omega⟩
          · cases h
          · exact ⟨⟨[], 1, ds, h, .none, hd.1, (digits10 ds).2 hd.2, by rw [value10_eq]; omega⟩, by omega, by omega⟩
    · rw [if_neg hl] at h; simp [finish] at h
  · rintro ⟨⟨sg, σ, ds, rfl, hs, hne, hd, rfl⟩, h1, h2⟩
    rw [digits10] at hd
    rw [value10_eq] at h1 h2 ⊢
    have key : ∀ neg, spanSign (sg ++ ds) = (neg, ds) →
        (if neg then σ = -1 else σ = 1) → atoi (sg ++ ds) = .ok (σ * digitsVal ds) := by
      intro neg hm hσ
      rw [atoi_sign (sg ++ ds) neg ds (by simp [hne]) hm (range_val ds), parseUint_10 ds hne hd]
      cases neg with
      | true =>
        simp only [if_true] at hσ
        subst hσ
        rw [if_pos (by omega)]
        simp only [finish, if_true]
        rw [if_neg (by omega)]
        congr 1
        omega
      | false =>
        simp only [Bool.false_eq_true, if_false] at hσ
        subst hσ
        rw [if_pos (by omega)]
        simp only [finish, Bool.false_eq_true, if_false]
        rw [if_neg (by omega)]
        congr 1
        omega
    cases hs with
    | none =>
      refine key false ?_ rfl
      obtain ⟨c, r, rfl⟩ := List.exists_cons_of_ne_nil hne
      obtain ⟨d, -, -, -, -, h3, h4, -⟩ := digit_props (hd c (by simp))
      simp only [List.nil_append]
      unfold spanSign
      split
      · rename_i h; simp at h; exact absurd h.1 h4
      · rename_i h; simp at h; exact absurd h.1 h3
      · rfl
    | plus => exact key false rfl rfl
    | minus => exact key true rfl rfl

/-! ### Decimal numbers -/

theorem spanSign_sign {sg : List Char} {σ : Int} (h : Sign sg σ) (s : List Char) (hs : ∀ c, s.head? = some c → c ≠ '+' ∧ c ≠ '-') :
    spanSign (sg ++ s) = (decide (σ = -1), s) ∧ (σ = 1 ∨ σ = -1) := by
  cases h with
  | none =>
    refine ⟨?_, Or.inl rfl⟩
    simp only [List.nil_append]
    unfold spanSign
    split
    · exact absurd rfl (hs _ rfl).1
    · exact absurd rfl (hs _ rfl).2
    · simp
  | plus => exact ⟨rfl, Or.inl rfl⟩
  | minus => exact ⟨rfl, Or.inr rfl⟩

theorem digit_head {ds : List Char} (hd : ∀ c ∈ ds, c.isDigit = true) (hne : ds ≠ []) (r : List Char) :
    ∀ c, (ds ++ r).head? = some c → c ≠ '+' ∧ c ≠ '-' := by
  obtain ⟨c, t, rfl⟩ := List.exists_cons_of_ne_nil hne
  intro x hx
  have : c = x := by simpa using hx
  subst this
  obtain ⟨d, -, -, -, -, h3, h4, -⟩ := digit_props (hd c (by simp))
  exact ⟨h4, h3⟩

theorem parseExp_exponent {ex : List Char} {e : Int} (h : Exponent ex e) : parseExp ex = some e := by
  rcases h with ⟨rfl, rfl⟩ | ⟨c, r, hc, rfl, sg, σ, ds, rfl, hs, hne, hd, rfl⟩
  · rfl
  · rw [digits10] at hd
    have hh := digit_head hd hne []
    rw [List.append_nil] at hh
    obtain ⟨h1, h2⟩ := spanSign_sign hs ds hh
    rw [parseExp, if_pos hc, h1]
    have hsp := spanDigits_run ds [] hd (by simp)
    rw [List.append_nil] at hsp
    simp only [hsp]
    rw [if_neg (by simp [hne]), value10_eq]
    rcases h2 with rfl | rfl
    · simp
    · simp

theorem parseUFloat_parts (whole frac mid ex : List Char) (e : Int) (hw : ∀ c ∈ whole, c.isDigit = true) (hf : ∀ c ∈ frac, c.isDigit = true)
    (hne : whole ≠ [] ∨ frac ≠ []) (hm : mid = [] ∧ frac = [] ∨ mid = '.' :: frac) (he : Exponent ex e) :
    parseUFloat (whole ++ (mid ++ ex)) = some ((digitsVal whole + digitsVal frac / 10 ^ frac.length : ℚ) * 10 ^ e) := by
  have hex : ∀ c ∈ ex.head?, c.isDigit = false ∧ c ≠ '.' := by
    rcases he with ⟨rfl, _⟩ | ⟨c, r, hc, rfl, _⟩
    · simp
    · rcases hc with rfl | rfl <;> simp <;> decide
  have hE := parseExp_exponent he
  have hval : ((digitsVal (whole ++ frac) : ℕ) : ℚ) / ((10 ^ frac.length : ℕ) : ℚ) * (10 : ℚ) ^ e =
      (digitsVal whole + digitsVal frac / 10 ^ frac.length : ℚ) * 10 ^ e := by
    rw [digitsVal_append]
    push_cast
    have : (10 : ℚ) ^ frac.length ≠ 0 := by positivity
    field_simp
  unfold parseUFloat
  rcases hm with ⟨rfl, rfl⟩ | rfl
  · have hs := spanDigits_run whole ex hw (fun c hc => (hex c hc).1)
    rw [List.nil_append, hs]
    simp only
    have hne : ¬ (whole = [] ∧ ([] : List Char) = []) := by tauto
    rcases he with ⟨rfl, _⟩ | ⟨c, r, hc, rfl, _⟩
    · dsimp only
      rw [if_neg hne, hE]
      simp only
      rw [← hval]
    · rcases hc with rfl | rfl
      · show (if whole = [] ∧ ([] : List Char) = [] then none else match parseExp ('e' :: r) with
          | none => none
          | some e => some ((digitsVal (whole ++ []) : Rat) / (10 ^ ([] : List Char).length : Nat) * (10 : Rat) ^ e)) = _
        rw [if_neg hne, hE]
        simp only
        rw [← hval]
      · show (if whole = [] ∧ ([] : List Char) = [] then none else match parseExp ('E' :: r) with
          | none => none
          | some e => some ((digitsVal (whole ++ []) : Rat) / (10 ^ ([] : List Char).length : Nat) * (10 : Rat) ^ e)) = _
        rw [if_neg hne, hE]
        simp only
        rw [← hval]
  · have hs := spanDigits_run whole ('.' :: frac ++ ex) hw (by simp)
    rw [hs]
    simp only [List.cons_append]
    rw [spanDigits_run frac ex hf (fun c hc => (hex c hc).1)]
    simp only
    rw [if_neg (by tauto), hE]
    simp only
    rw [← hval]

/-- `ParseFloat` of a decimal number. -/
theorem parseFloat_decimal (rnd : ℚ → ℚ) (s : List Char) (q : ℚ) (h : Decimal s q) : parseFloat rnd s = some (rnd q) := by
  obtain ⟨sg, σ, whole, frac, mid, ex, e, rfl, hs, hw, hf, hne, hm, he, rfl⟩ := h
  rw [digits10] at hw hf
  have hh : ∀ c, (whole ++ (mid ++ ex)).head? = some c → c ≠ '+' ∧ c ≠ '-' := by
    by_cases h0 : whole = []
    · subst h0
      have hfr : frac ≠ [] := by tauto
      rcases hm with ⟨_, h⟩ | rfl
      · exact absurd h hfr
      · intro c hc
        have : '.' = c := by simpa using hc
        subst this
        decide
    · exact digit_head hw h0 _
  obtain ⟨h1, h2⟩ := spanSign_sign hs _ hh
  unfold parseFloat
  rw [h1]
  simp only
  rw [parseUFloat_parts whole frac mid ex e hw hf hne hm he]
  simp only
  rw [value10_eq, value10_eq]
  rcases h2 with rfl | rfl
  · simp
  · simp only [decide_true, if_true, Int.reduceNeg, Int.cast_neg, Int.cast_one, neg_mul, one_mul]

/-! ### Spaces and commas -/

/-- Characters of numerals. -/
def numChar (c : Char) : Bool := c.isDigit || c == '+' || c == '-' || c == '.' || c == 'e' || c == 'E'

theorem numChar_plain (c : Char) (h : numChar c = true) : isTrim c = false ∧ c ≠ ',' := by
  unfold numChar at h
  simp only [Bool.or_eq_true, beq_iff_eq] at h
  rcases h with ((((h | h) | h) | h) | h) | h
  · have := digit_cases h
    simp only [List.mem_cons, List.not_mem_nil, or_false] at this
    rcases this with h | h | h | h | h | h | h | h | h | h <;> subst h <;> decide
  all_goals subst h; decide

theorem sign_chars {sg : List Char} {σ : Int} (h : Sign sg σ) : ∀ c ∈ sg, numChar c = true := by
  cases h <;> simp <;> decide

theorem digit_chars {ds : List Char} (h : ∀ c ∈ ds, c.isDigit = true) : ∀ c ∈ ds, numChar c = true := by
  intro c hc
  unfold numChar
  rw [h c hc]; rfl

theorem int_chars {s : List Char} {n : Int} (h : IntNumeral s n) : s ≠ [] ∧ ∀ c ∈ s, numChar c = true := by
  obtain ⟨sg, σ, ds, rfl, hs, hne, hd, -⟩ := h
  refine ⟨by simp [hne], ?_⟩
  intro c hc
  rcases List.mem_append.1 hc with h | h
  · exact sign_chars hs c h
  · exact digit_chars ((digits10 ds).1 hd) c h

theorem decimal_chars {s : List Char} {q : ℚ} (h : Decimal s q) : s ≠ [] ∧ ∀ c ∈ s, numChar c = true := by
  obtain ⟨sg, σ, whole, frac, mid, ex, e, rfl, hs, hw, hf, hne, hm, he, -⟩ := h
  rw [digits10] at hw hf
  have hmid : ∀ c ∈ mid, numChar c = true := by
    rcases hm with ⟨rfl, _⟩ | rfl
    · simp
    · intro c hc
      rcases List.mem_cons.1 hc with rfl | hc
      · decide
      · exact digit_chars hf c hc
  have hex : ∀ c ∈ ex, numChar c = true := by
    rcases he with ⟨rfl, _⟩ | ⟨x, r, hx, rfl, hi⟩
    · simp
    · intro c hc
      rcases List.mem_cons.1 hc with rfl | hc
      · rcases hx with rfl | rfl <;> decide
      · exact (int_chars hi).2 c hc
  refine ⟨?_, ?_⟩
  · rcases hne with h | h
    · simp [h]
    · rcases hm with ⟨_, h2⟩ | h2
      · exact absurd h2 h
      · simp [h2]
  · intro c hc
    rw [List.mem_append, List.mem_append, List.mem_append] at hc
    rcases hc with h | h | h | h
    · exact sign_chars hs c h
    · exact digit_chars hw c h
    · exact hmid c h
    · exact hex c h

theorem space_trim (c : Char) (h : c ∈ [' ', '\t', '\n', '\r', '\x0b', '\x0c']) : isTrim c = true ∧ c ≠ ',' := by
  simp only [List.mem_cons, List.not_mem_nil, or_false] at h
  rcases h with rfl | rfl | rfl | rfl | rfl | rfl <;> decide

theorem dropWhile_run {α : Type} (p : α → Bool) (a s : List α) (ha : ∀ c ∈ a, p c = true) (hs : ∀ c ∈ s.head?, p c = false) :
    (a ++ s).dropWhile p = s := by
  induction a with
  | nil =>
    cases s with
    | nil => rfl
    | cons c s => rw [List.nil_append, List.dropWhile_cons_of_neg]; rw [hs c rfl]; simp
  | cons c a ih =>
    rw [List.cons_append, List.dropWhile_cons_of_pos (ha c (by simp))]
    exact ih (fun c hc => ha c (by simp [hc]))

theorem trim_spaced (t s : List Char) (h : Spaced t s) (hne : s ≠ []) (hs : ∀ c ∈ s, numChar c = true) : trimSpace t = s ∧ ',' ∉ t := by
  obtain ⟨a, b, rfl, hab⟩ := h
  have ha : ∀ c ∈ a, isTrim c = true := fun c hc => (space_trim c (hab c (by simp [hc]))).1
  have hb : ∀ c ∈ b, isTrim c = true := fun c hc => (space_trim c (hab c (by simp [hc]))).1
  refine ⟨?_, ?_⟩
  · unfold trimSpace
    rw [List.append_assoc, dropWhile_run isTrim a (s ++ b) ha, List.reverse_append, dropWhile_run isTrim b.reverse s.reverse, List.reverse_reverse]
    · intro c hc; exact hb c (by simpa using hc)
    · intro c hc
      have hc : c ∈ s := by
        have := List.mem_of_mem_head? hc
        simpa using this
      exact (numChar_plain c (hs c hc)).1
    · intro c hc
      obtain ⟨x, r, rfl⟩ := List.exists_cons_of_ne_nil hne
      have : x = c := by simpa using hc
      exact (numChar_plain c (hs c (by simp [this]))).1
  · intro hc
    rw [List.mem_append, List.mem_append] at hc
    rcases hc with (h | h) | h
    · exact (space_trim _ (hab _ (by simp [h]))).2 rfl
    · exact (numChar_plain _ (hs _ h)).2 rfl
    · exact (space_trim _ (hab _ (by simp [h]))).2 rfl

theorem commaSep_join : ∀ l, commaSep l = join ',' l
  | [] => rfl
  | [_] => rfl
  | a :: b :: r => by
    rw [commaSep, join, commaSep_join (b :: r)]
    simp

/-- The loop over readable components. -/
theorem floatsLoop_parts (rnd : ℚ → ℚ) (parts : List (List Char)) (qs : List ℚ)
    (h : List.Forall₂ (fun p q => parseFloat rnd (trimSpace p) = some q) parts qs) : ∀ (pre : List ℚ) (k : Nat) (e : Bool),
    parts.length ≤ k → (parts ≠ [] ∨ e = false) →
    floatsLoop rnd parts pre.length (pre ++ List.replicate k 0) e = .ok (pre ++ qs ++ List.replicate (k - parts.length) 0) := by
  induction h with
  | nil =>
    intro pre k e _ he
    have : e = false := by tauto
    subst this
    simp [floatsLoop]
  | @cons p q ps qs hp _ ih =>
    intro pre k e hk _
    rw [List.length_cons] at hk
    obtain ⟨k, rfl⟩ : ∃ k', k = k' + 1 := ⟨k - 1, by omega⟩
    rw [floatsLoop, if_pos (by simp), hp]
    simp only
    have := ih (pre ++ [q]) k false (by omega) (Or.inr rfl)
    have e1 : (pre ++ List.replicate (k + 1) (0 : ℚ)).set pre.length q = pre ++ [q] ++ List.replicate k 0 := by
      rw [List.set_append_right _ _ (Nat.le_refl _), Nat.sub_self, List.replicate_succ, List.set_cons_zero]
      simp
    rw [e1]
    simp only [List.length_append, List.length_cons, List.length_nil] at this
    rw [this]
    congr 1
    simp

/-- Too many components. -/
theorem floatsLoop_panic (rnd : ℚ → ℚ) (parts : List (List Char)) : ∀ (i : Nat) (acc : List ℚ) (e : Bool),
    acc.length < i + parts.length → i ≤ acc.length → floatsLoop rnd parts i acc e = .panic := by
  induction parts with
  | nil => intro i acc e h h2; simp at h; omega
  | cons p ps ih =>
    intro i acc e h h2
    rw [List.length_cons] at h
    rw [floatsLoop]
    by_cases hi : i < acc.length
    · rw [if_pos hi]
      split
      · exact ih _ _ _ (by rw [List.length_set]; omega) (by rw [List.length_set]; omega)
      · exact ih _ _ _ (by rw [List.length_set]; omega) (by rw [List.length_set]; omega)
    · rw [if_neg hi]

/-! ### Last rows -/

/-- The value of the last row with a name. -/
def lastOf (rows : List (String × List Char)) (k : String) : Option (List Char) :=
  ((rows.filter fun r => r.1 = k).getLast?).map Prod.snd

theorem given_eq (rows : List (String × List Char)) (k : String) :
    given rows k = lastOf (rows.filter fun r => decide (r.2 ≠ [])) k := by
  unfold given lastOf
  rw [List.filter_filter]
  congr 3
  funext r
  simp

theorem lastOf_snoc (rows : List (String × List Char)) (r : String × List Char) (k : String) :
    lastOf (rows ++ [r]) k = if r.1 = k then some r.2 else lastOf rows k := by
  unfold lastOf
  rw [List.filter_append]
  by_cases h : r.1 = k
  · simp [h]
  · simp [h]

theorem putRows_snoc {LD : Type} {rnd : ℚ → ℚ} {cd : Codec LD} {md md' : Metadata LD} {rows : List (String × List Char)} {r : String × List Char}
    (h : putRows rnd cd md (rows ++ [r]) = .ok md') : ∃ m1 o, putRows rnd cd md rows = .ok m1 ∧ parseRow rnd cd r = .ok o ∧ md' = putO m1 o := by
  rw [putRows_append] at h
  cases h1 : putRows rnd cd md rows with
  | err => rw [h1] at h; simp [Res.bind] at h
  | panic => rw [h1] at h; simp [Res.bind] at h
  | ok m1 =>
    rw [h1] at h
    simp only [Res.bind, putRows] at h
    rw [putRow_eq] at h
    cases h2 : parseRow rnd cd r with
    | err => rw [h2] at h; simp [Res.bind] at h
    | panic => rw [h2] at h; simp [Res.bind] at h
    | ok o =>
      rw [h2] at h
      simp only [Res.bind, Res.ok.injEq] at h
      exact ⟨m1, o, rfl, rfl, h.symm⟩

/-- A field is given by the last row of its key. -/
theorem field_last {LD α : Type} {rnd : ℚ → ℚ} {cd : Codec LD} (π : Metadata LD → α) (K : Key) (P : List Char → α → Prop)
    (hset : ∀ md v u, parseRow rnd cd (keyName K, v) = .ok (some u) → P v (π (put md u)))
    (hrow : ∀ v, parseRow rnd cd (keyName K, v) ≠ .ok none)
    (hkeep : ∀ md u, Upd.key u ≠ K → π (put md u) = π md)
    (rows : List (String × List Char)) (md md' : Metadata LD) (h : putRows rnd cd md rows = .ok md') :
    (lastOf rows (keyName K) = none ∧ π md' = π md) ∨ ∃ v, lastOf rows (keyName K) = some v ∧ P v (π md') := by
  induction rows using List.reverseRecOn generalizing md' with
  | nil => left; simp only [putRows, Res.ok.injEq] at h; rw [h]; exact ⟨rfl, rfl⟩
  | append_singleton rows r ih =>
    obtain ⟨m1, o, h1, h2, rfl⟩ := putRows_snoc h
    rw [lastOf_snoc]
    obtain ⟨k, v⟩ := r
    by_cases hk : k = keyName K
    · subst hk
      rw [if_pos rfl]
      right
      cases o with
      | none => exact absurd h2 (hrow v)
      | some u => exact ⟨v, rfl, hset m1 v u h2⟩
    · rw [if_neg hk]
      have e : π (putO m1 o) = π m1 := by
        cases o with
        | none => rfl
        | some u =>
          refine hkeep m1 u ?_
          rintro rfl
          exact hk (keyOf_name (parseRow_key h2))
      rw [e]
      exact ih m1 h1

/-- All rows can be parsed exactly if the loop succeeds. -/
theorem putRows_iff {LD : Type} (rnd : ℚ → ℚ) (cd : Codec LD) (rows : List (String × List Char)) (md : Metadata LD) :
    (∃ md', putRows rnd cd md rows = .ok md') ↔ ∀ r ∈ rows, ∃ o, parseRow rnd cd r = .ok o := by
  constructor
  · rintro ⟨md', h⟩
    induction rows using List.reverseRecOn generalizing md' with
    | nil => intro r hr; simp at hr
    | append_singleton rows r ih =>
      obtain ⟨m1, o, h1, h2, -⟩ := putRows_snoc h
      intro x hx
      rcases List.mem_append.1 hx with h | h
      · exact ih m1 h1 x h
      · simp at h; rw [h]; exact ⟨o, h2⟩
  · intro h
    induction rows generalizing md with
    | nil => exact ⟨md, rfl⟩
    | cons r rows ih =>
      obtain ⟨o, ho⟩ := h r (by simp)
      rw [putRows, putRow_eq, ho]
      simp only [Res.bind]
      exact ih _ (fun r hr => h r (by simp [hr]))

end Verif.Mbtiles
