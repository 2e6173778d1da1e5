import Verif.Spec.Numeral
import Verif.Proof.Strconv

/-!
# Lemmas: `strconv.ParseInt(s, 0, 64)` and integer literals
-/
namespace Verif.Num
open Verif.Go

theorem char_small (P : Char → Prop) (hs : ∀ n, n < 128 → P (Char.ofNat n)) (hb : ∀ c : Char, 128 ≤ c.toNat → P c) (c : Char) : P c := by
  by_cases h : c.toNat < 128
  · have := hs c.toNat h
    rwa [Char.ofNat_toNat] at this
  · exact hb c (by omega)

theorem char_le (a c : Char) : a ≤ c ↔ a.toNat ≤ c.toNat := by
  rw [Char.le_def, UInt32.le_iff_toNat_le]; rfl

theorem big_digit (c : Char) (h : 128 ≤ c.toNat) : digit c = none := by
  unfold digit
  rw [if_neg, if_neg, if_neg]
  all_goals
    rintro ⟨_, h2⟩
    rw [char_le] at h2
    have : ('9').toNat = 57 ∧ ('f').toNat = 102 ∧ ('F').toNat = 70 := by decide
    omega

theorem big_lower (c : Char) (h : 128 ≤ c.toNat) : lower c = c := by
  unfold lower
  rw [if_neg]
  rintro ⟨_, h2⟩
  rw [char_le] at h2
  have : ('Z').toNat = 90 := by decide
  omega

theorem big_digitVal (c : Char) (h : 128 ≤ c.toNat) : digitVal c = none := by
  unfold digitVal
  rw [big_lower c h, if_neg, if_neg]
  all_goals
    rintro ⟨_, h2⟩
    rw [char_le] at h2
    have : ('9').toNat = 57 ∧ ('z').toNat = 122 := by decide
    omega

theorem digit_val (c : Char) : (∀ d, d < 16 → (digitVal c = some d ↔ digit c = some d)) ∧ (∀ d, digit c = some d → d < 16) := by
  refine char_small (fun c => (∀ d, d < 16 → (digitVal c = some d ↔ digit c = some d)) ∧ (∀ d, digit c = some d → d < 16)) ?_ ?_ c
  · have h : ∀ n, n < 128 → (∀ d, d < 16 → (digitVal (Char.ofNat n) = some d ↔ digit (Char.ofNat n) = some d)) ∧
      (digit (Char.ofNat n)).all (· < 16) = true := by decide +kernel
    intro n hn
    refine ⟨(h n hn).1, fun d hd => ?_⟩
    have := (h n hn).2
    rw [hd] at this
    simpa using this
  · intro c hc
    rw [big_digit c hc, big_digitVal c hc]
    simp

/-- Digits of the decimal and hexadecimal kinds that the underscore check knows. -/
theorem under_digit (c : Char) : (∀ d, digit c = some d → d < 10 → ('0' ≤ c ∧ c ≤ '9')) ∧
    (∀ d, digit c = some d → ('0' ≤ c ∧ c ≤ '9') ∨ 'a' ≤ lower c ∧ lower c ≤ 'f') := by
  refine char_small (fun c => (∀ d, digit c = some d → d < 10 → ('0' ≤ c ∧ c ≤ '9')) ∧
    (∀ d, digit c = some d → ('0' ≤ c ∧ c ≤ '9') ∨ 'a' ≤ lower c ∧ lower c ≤ 'f')) ?_ ?_ c
  · have h1 : ∀ n, n < 128 → ∀ d, d < 10 → digit (Char.ofNat n) = some d → ('0' ≤ Char.ofNat n ∧ Char.ofNat n ≤ '9') := by decide +kernel
    have h2 : ∀ n, n < 128 → ∀ d, d < 16 → digit (Char.ofNat n) = some d →
      (('0' ≤ Char.ofNat n ∧ Char.ofNat n ≤ '9') ∨ 'a' ≤ lower (Char.ofNat n) ∧ lower (Char.ofNat n) ≤ 'f') := by decide +kernel
    intro n hn
    exact ⟨fun d hd hd2 => h1 n hn d hd2 hd, fun d hd => h2 n hn d ((digit_val _).2 d hd) hd⟩
  · intro c hc
    rw [big_digit c hc]
    simp

/-! ### The digit loop -/

/-- Value with a start value. -/
def valueFrom (base n : Nat) (cs : List Char) : Nat := (cs.filter (· ≠ '_')).foldl (fun n c => n * base + (digit c).getD 0) n

theorem valueFrom_ge (base : Nat) (hb : 1 ≤ base) (cs : List Char) (n : Nat) : n ≤ valueFrom base n cs := by
  unfold valueFrom
  generalize cs.filter (· ≠ '_') = l
  induction l generalizing n with
  | nil => exact Nat.le_refl n
  | cons c l ih =>
    rw [List.foldl_cons]
    refine Nat.le_trans ?_ (ih _)
    have : n * 1 ≤ n * base := Nat.mul_le_mul_left n hb
    omega

theorem valueFrom_cons (base n : Nat) (c : Char) (cs : List Char) : valueFrom base n (c :: cs) =
    if c = '_' then valueFrom base n cs else valueFrom base (n * base + (digit c).getD 0) cs := by
  unfold valueFrom
  by_cases h : c = '_'
  · simp [h]
  · simp [h]

/-- All characters are underscores or digits of the base. -/
def AllDigits (base : Nat) (cs : List Char) : Prop := ∀ c ∈ cs, c ≠ '_' → ∃ d, digit c = some d ∧ d < base

theorem parseDigits_all (base : Nat) (hb : 1 ≤ base) (hb2 : base ≤ 16) (cs : List Char) (h : AllDigits base cs) (n : Nat)
    (hn : n < 18446744073709551616) : parseDigits true base cs n =
      if valueFrom base n cs < 18446744073709551616 then .ok (valueFrom base n cs) else .error (.range, 18446744073709551615) := by
  induction cs generalizing n with
  | nil => rw [parseDigits, if_pos (show valueFrom base n [] < _ from hn)]; rfl
  | cons c cs ih =>
    have ih' := fun n hn => ih (fun c hc => h c (List.mem_cons_of_mem _ hc)) n hn
    rw [parseDigits, valueFrom_cons]
    by_cases hu : c = '_'
    · rw [if_pos ⟨hu, rfl⟩, if_pos hu]
      exact ih' n hn
    · rw [if_neg (fun hc => hu hc.1), if_neg hu]
      obtain ⟨d, hd, hlt⟩ := h c (by simp) hu
      rw [((digit_val c).1 d (by omega)).2 hd, hd]
      simp only [Option.getD_some]
      rw [if_neg (by omega)]
      by_cases hbig : n * base + d ≥ 18446744073709551616
      · rw [if_pos hbig, if_neg]
        have := valueFrom_ge base hb cs (n * base + d)
        omega
      · rw [if_neg hbig]
        exact ih' _ (by omega)

theorem parseDigits_ok (base : Nat) (hb2 : base ≤ 16) (cs : List Char) (n v : Nat) (h : parseDigits true base cs n = .ok v) :
    AllDigits base cs := by
  induction cs generalizing n with
  | nil => intro c hc; simp at hc
  | cons c cs ih =>
    rw [parseDigits] at h
    by_cases hu : c = '_'
    · rw [if_pos ⟨hu, rfl⟩] at h
      intro x hx hx2
      rcases List.mem_cons.1 hx with rfl | hx
      · exact absurd hu hx2
      · exact ih n h x hx hx2
    · rw [if_neg (fun hc => hu hc.1)] at h
      cases hd : digitVal c with
      | none => rw [hd] at h; simp at h
      | some d =>
        rw [hd] at h
        simp only at h
        by_cases h1 : d ≥ base
        · rw [if_pos h1] at h; simp at h
        · rw [if_neg h1] at h
          by_cases h2 : n * base + d ≥ 18446744073709551616
          · rw [if_pos h2] at h; simp at h
          · rw [if_neg h2] at h
            intro x hx hx2
            rcases List.mem_cons.1 hx with rfl | hx
            · exact ⟨d, ((digit_val x).1 d (by omega)).1 hd, by omega⟩
            · exact ih _ h x hx hx2

/-- A bad character: a syntax error, unless the digits before it are already too large. -/
theorem parseDigits_err (base : Nat) (cs : List Char) (n : Nat) :
    (∃ v, parseDigits true base cs n = .ok v) ∨ parseDigits true base cs n = .error (.syntax, 0) ∨
      parseDigits true base cs n = .error (.range, 18446744073709551615) := by
  induction cs generalizing n with
  | nil => exact Or.inl ⟨n, rfl⟩
  | cons c cs ih =>
    rw [parseDigits]
    by_cases hu : c = '_'
    · rw [if_pos ⟨hu, rfl⟩]; exact ih n
    · rw [if_neg (fun hc => hu hc.1)]
      cases hd : digitVal c with
      | none => simp
      | some d =>
        simp only
        by_cases h1 : d ≥ base
        · rw [if_pos h1]; simp
        · rw [if_neg h1]
          by_cases h2 : n * base + d ≥ 18446744073709551616
          · rw [if_pos h2]; simp
          · rw [if_neg h2]; exact ih _

theorem pow_mono {a b n : Nat} (h : a ≤ b) (hn : 1 ≤ n) : n ^ a ≤ n ^ b := Nat.pow_le_pow_right hn h

/-- Sixteen characters never are too large. -/
theorem parseDigits_short (base : Nat) (hb2 : base ≤ 16) (cs : List Char) (k n : Nat) (hn : n < 16 ^ k) (hl : cs.length + k ≤ 16) :
    parseDigits true base cs n ≠ .error (.range, 18446744073709551615) := by
  induction cs generalizing n k with
  | nil => rw [parseDigits]; simp
  | cons c cs ih =>
    rw [List.length_cons] at hl
    rw [parseDigits]
    by_cases hu : c = '_'
    · rw [if_pos ⟨hu, rfl⟩]
      exact ih k n hn (by omega)
    · rw [if_neg (fun hc => hu hc.1)]
      cases hd : digitVal c with
      | none => simp
      | some d =>
        simp only
        by_cases h1 : d ≥ base
        · rw [if_pos h1]; simp
        · rw [if_neg h1]
          have h3 : n * base + d < 16 ^ (k + 1) := by
            have : n * base ≤ n * 16 := Nat.mul_le_mul_left n hb2
            rw [Nat.pow_succ]
            omega
          have h4 : 16 ^ (k + 1) ≤ 16 ^ 16 := pow_mono (by omega) (by omega)
          have h5 : (16 : Nat) ^ 16 = 18446744073709551616 := by norm_num
          rw [if_neg (by omega)]
          exact ih (k + 1) _ h3 (by omega)

/-! ### Underscores -/

/-- Each underscore is followed by another character. -/
def Followed (cs : List Char) : Prop := ∀ i, cs[i]? = some '_' → ∃ c, cs[i + 1]? = some c ∧ c ≠ '_'

theorem followed_cons (c : Char) (cs : List Char) : Followed (c :: cs) ↔ (c = '_' → ∃ x, cs.head? = some x ∧ x ≠ '_') ∧ Followed cs := by
  constructor
  · intro h
    refine ⟨fun hc => ?_, fun i hi => ?_⟩
    · obtain ⟨x, h1, h2⟩ := h 0 (by simp [hc])
      exact ⟨x, by simpa [List.head?_eq_getElem?] using h1, h2⟩
    · obtain ⟨x, h1, h2⟩ := h (i + 1) (by simpa using hi)
      exact ⟨x, by simpa using h1, h2⟩
  · rintro ⟨h1, h2⟩ i hi
    cases i with
    | zero =>
      obtain ⟨x, e1, e2⟩ := h1 (by simpa using hi)
      exact ⟨x, by simpa [List.head?_eq_getElem?] using e1, e2⟩
    | succ i =>
      obtain ⟨x, e1, e2⟩ := h2 i (by simpa using hi)
      exact ⟨x, by simpa using e1, e2⟩

theorem loop_iff (hex : Bool) (cs : List Char)
    (hd : ∀ c ∈ cs, c ≠ '_' → ('0' ≤ c ∧ c ≤ '9') ∨ (hex = true ∧ 'a' ≤ lower c ∧ lower c ≤ 'f')) (i : Char)
    (hi : i = '^' ∨ i = '0' ∨ i = '_') :
    underscoreLoop hex cs i = true ↔ Followed cs ∧ (cs.head? = some '_' → i = '0') ∧ (i = '_' → cs ≠ []) := by
  induction cs generalizing i with
  | nil =>
    rw [underscoreLoop]
    simp [Followed]
  | cons c cs ih =>
    rw [underscoreLoop, followed_cons]
    have ih' := fun i hi => ih (fun c hc => hd c (List.mem_cons_of_mem _ hc)) i hi
    by_cases hu : c = '_'
    · have hnd : ¬ (('0' ≤ c ∧ c ≤ '9') ∨ (hex = true ∧ 'a' ≤ lower c ∧ lower c ≤ 'f')) := by
        rw [hu]
        cases hex <;> decide
      rw [if_neg hnd, if_pos hu]
      by_cases hz : i = '0'
      · rw [if_neg (by simpa using hz), ih' '_' (by simp)]
        simp only [hu, hz, List.head?_cons]
        cases cs with
        | nil => simp
        | cons x xs => simp; tauto
      · rw [if_pos hz]
        simp [hu, hz]
    · rw [if_pos (hd c (by simp) hu), ih' '0' (by simp)]
      simp [hu]

/-! ### Prefixes -/

theorem lower_digit (c : Char) : (∀ d, d < 10 → digit c = some d → lower c ≠ 'b' ∧ lower c ≠ 'o' ∧ lower c ≠ 'x') := by
  refine char_small (fun c => (∀ d, d < 10 → digit c = some d → lower c ≠ 'b' ∧ lower c ≠ 'o' ∧ lower c ≠ 'x')) (by decide +kernel) ?_ c
  intro c hc
  rw [big_digit c hc]
  simp

theorem lower_letter (c : Char) : (lower c = 'b' ↔ c = 'b' ∨ c = 'B') ∧ (lower c = 'o' ↔ c = 'o' ∨ c = 'O') ∧
    (lower c = 'x' ↔ c = 'x' ∨ c = 'X') := by
  refine char_small (fun c => (lower c = 'b' ↔ c = 'b' ∨ c = 'B') ∧ (lower c = 'o' ↔ c = 'o' ∨ c = 'O') ∧
    (lower c = 'x' ↔ c = 'x' ∨ c = 'X')) (by decide +kernel) ?_ c
  intro c hc
  rw [big_lower c hc]
  have h : ∀ l : Char, l.toNat < 128 → c ≠ l := fun l hl e => by rw [e] at hc; omega
  simp [h 'b' (by decide), h 'B' (by decide), h 'o' (by decide), h 'O' (by decide), h 'x' (by decide), h 'X' (by decide)]

/-- Which underscore check belongs to a prefix. -/
theorem under_false {base : Nat} (hb : base ≤ 10) {cs : List Char} (h : AllDigits base cs) :
    ∀ c ∈ cs, c ≠ '_' → ('0' ≤ c ∧ c ≤ '9') ∨ (false = true ∧ 'a' ≤ lower c ∧ lower c ≤ 'f') := by
  intro c hc hu
  obtain ⟨d, h1, h2⟩ := h c hc hu
  exact Or.inl ((under_digit c).1 d h1 (by omega))

theorem under_true {base : Nat} {cs : List Char} (h : AllDigits base cs) :
    ∀ c ∈ cs, c ≠ '_' → ('0' ≤ c ∧ c ≤ '9') ∨ (true = true ∧ 'a' ≤ lower c ∧ lower c ≤ 'f') := by
  intro c hc hu
  obtain ⟨d, h1, h2⟩ := h c hc hu
  rcases (under_digit c).2 d h1 with h | h
  · exact Or.inl h
  · exact Or.inr ⟨rfl, h⟩

/-- The check after a prefix. -/
theorem check_after (hex : Bool) {cs : List Char}
    (h : ∀ c ∈ cs, c ≠ '_' → ('0' ≤ c ∧ c ≤ '9') ∨ (hex = true ∧ 'a' ≤ lower c ∧ lower c ≤ 'f')) :
    underscoreLoop hex cs '0' = true ↔ Followed cs := by
  rw [loop_iff hex cs h '0' (by simp)]
  simp

theorem letter_prefix (l : Char) (cs : List Char) (hne : cs ≠ []) (base : Nat) (hl : (l = 'b' ∨ l = 'B') ∧ base = 2 ∨ (l = 'o' ∨ l = 'O') ∧ base = 8 ∨
    (l = 'x' ∨ l = 'X') ∧ base = 16) :
    basePrefix ('0' :: l :: cs) = (base, cs) ∧
    (AllDigits base cs → (underscoreOK ('0' :: l :: cs) = true ↔ Followed cs)) := by
  obtain ⟨d, rest, rfl⟩ := List.exists_cons_of_ne_nil hne
  obtain ⟨lb, lo, lx⟩ := lower_letter l
  unfold basePrefix underscoreOK
  simp only
  rcases hl with ⟨h, rfl⟩ | ⟨h, rfl⟩ | ⟨h, rfl⟩
  · have e := lb.2 h
    refine ⟨by rw [if_pos e], fun hd => ?_⟩
    rw [if_pos (Or.inl e), e]
    exact check_after _ (under_false (by omega) hd)
  · have e := lo.2 h
    refine ⟨by rw [if_neg (by rw [e]; decide), if_pos e], fun hd => ?_⟩
    rw [if_pos (Or.inr (Or.inl e)), e]
    exact check_after _ (under_false (by omega) hd)
  · have e := lx.2 h
    refine ⟨by rw [if_neg (by rw [e]; decide), if_neg (by rw [e]; decide), if_pos e], fun hd => ?_⟩
    rw [if_pos (Or.inr (Or.inr e)), e]
    exact check_after _ (under_true hd)

theorem zero_prefix (cs : List Char) (hd : AllDigits 8 cs) :
    basePrefix ('0' :: cs) = (8, cs) ∧ (underscoreOK ('0' :: cs) = true ↔ Followed cs) := by
  have hlow : ∀ p ∈ cs, ¬ (lower p = 'b' ∨ lower p = 'o' ∨ lower p = 'x') := by
    intro p hp
    by_cases hu : p = '_'
    · rw [hu]; decide
    · obtain ⟨d, h1, h2⟩ := hd p hp hu
      have := lower_digit p d (by omega) h1
      tauto
  have hloop : underscoreLoop false ('0' :: cs) '^' = true ↔ Followed cs := by
    rw [underscoreLoop, if_pos (Or.inl (by decide))]
    exact check_after _ (under_false (by omega) hd)
  cases cs with
  | nil => exact ⟨rfl, hloop⟩
  | cons p rest =>
    have h := hlow p (by simp)
    constructor
    · cases rest with
      | nil => rfl
      | cons q rest =>
        unfold basePrefix
        simp only
        rw [if_neg (by tauto), if_neg (by tauto), if_neg (by tauto)]
    · unfold underscoreOK
      simp only
      rw [if_neg h]
      exact hloop

theorem no_prefix (cs : List Char) (h0 : cs.head? ≠ some '0') :
    basePrefix cs = (10, cs) ∧ (AllDigits 10 cs → (underscoreOK cs = true ↔ Followed cs ∧ cs.head? ≠ some '_')) := by
  have e1 : basePrefix cs = (10, cs) := by
    unfold basePrefix
    split
    · simp at h0
    · simp at h0
    · rfl
  have e2 : underscoreOK cs = underscoreLoop false cs '^' := by
    unfold underscoreOK
    split
    · simp at h0
    · rfl
  refine ⟨e1, fun hd => ?_⟩
  rw [e2, loop_iff false cs (under_false (by omega) hd) '^' (by simp)]
  simp

theorem prefix_base {pre : List Char} {base : Nat} (h : Prefix pre base) : 2 ≤ base ∧ base ≤ 16 := by
  unfold Prefix at h
  omega

theorem prefix_facts (pre : List Char) (base : Nat) (cs : List Char) (hp : Prefix pre base) (hd : AllDigits base cs)
    (h1 : cs = [] → pre = ['0']) (h2 : pre = [] → cs.head? ≠ some '0') :
    basePrefix (pre ++ cs) = (base, cs) ∧
      (underscoreOK (pre ++ cs) = true ↔ Followed cs ∧ (cs.head? = some '_' → pre ≠ [])) := by
  have letter : ∀ l, pre = ['0', l] → ((l = 'b' ∨ l = 'B') ∧ base = 2 ∨ (l = 'o' ∨ l = 'O') ∧ base = 8 ∨ (l = 'x' ∨ l = 'X') ∧ base = 16) →
      basePrefix (pre ++ cs) = (base, cs) ∧
      (underscoreOK (pre ++ cs) = true ↔ Followed cs ∧ (cs.head? = some '_' → pre ≠ [])) := by
    intro l e hl
    have hne : cs ≠ [] := fun hc => by rw [h1 hc] at e; simp at e
    have := letter_prefix l cs hne base hl
    rw [e]
    simp only [List.cons_append, List.nil_append]
    refine ⟨this.1, (this.2 hd).trans ?_⟩
    simp
  rcases hp with ⟨e, rfl⟩ | ⟨e, rfl⟩ | ⟨e | e, rfl⟩ | ⟨e | e, rfl⟩ | ⟨e | e, rfl⟩
  · subst e
    have := no_prefix cs (h2 rfl)
    refine ⟨this.1, (this.2 hd).trans ?_⟩
    simp
  · subst e
    have := zero_prefix cs hd
    refine ⟨this.1, this.2.trans ?_⟩
    simp
  all_goals exact letter _ e (by decide)

theorem digits_iff (a : Prop) (base : Nat) (cs : List Char) :
    Digits a base cs ↔ AllDigits base cs ∧ Followed cs ∧ (cs.head? = some '_' → a) := by
  constructor
  · rintro ⟨h1, h2⟩
    refine ⟨h1, fun i hi => (h2 i hi).1, fun h => (h2 0 (by simpa [List.head?_eq_getElem?] using h)).2 rfl⟩
  · rintro ⟨h1, h2, h3⟩
    refine ⟨h1, fun i hi => ⟨h2 i hi, fun h0 => ?_⟩⟩
    subst h0
    exact h3 (by simpa [List.head?_eq_getElem?] using hi)

/-- Every text is a prefix and a rest. -/
theorem prefix_exists (s : List Char) (hs : s ≠ []) : ∃ pre base cs, s = pre ++ cs ∧ basePrefix s = (base, cs) ∧ Prefix pre base ∧
    (cs = [] → pre = ['0']) ∧ (pre = [] → cs.head? ≠ some '0') := by
  by_cases h0 : s.head? = some '0'
  · obtain ⟨r, rfl⟩ : ∃ r, s = '0' :: r := by
      cases s with
      | nil => simp at h0
      | cons c r => simp at h0; exact ⟨r, by rw [h0]⟩
    have bare : basePrefix ('0' :: r) = (8, r) → ∃ pre base cs, '0' :: r = pre ++ cs ∧ basePrefix ('0' :: r) = (base, cs) ∧ Prefix pre base ∧
        (cs = [] → pre = ['0']) ∧ (pre = [] → cs.head? ≠ some '0') := fun h =>
      ⟨['0'], 8, r, rfl, h, by unfold Prefix; simp, fun _ => rfl, by simp⟩
    match r with
    | [] => exact bare rfl
    | [p] => exact bare rfl
    | l :: d :: rest =>
      obtain ⟨lb, lo, lx⟩ := lower_letter l
      have letter : ∀ base, ((l = 'b' ∨ l = 'B') ∧ base = 2 ∨ (l = 'o' ∨ l = 'O') ∧ base = 8 ∨ (l = 'x' ∨ l = 'X') ∧ base = 16) →
          ∃ pre base cs, '0' :: l :: d :: rest = pre ++ cs ∧ basePrefix ('0' :: l :: d :: rest) = (base, cs) ∧ Prefix pre base ∧
          (cs = [] → pre = ['0']) ∧ (pre = [] → cs.head? ≠ some '0') := by
        intro base hl
        refine ⟨['0', l], base, d :: rest, rfl, (letter_prefix l (d :: rest) (by simp) base hl).1, ?_, by simp, by simp⟩
        unfold Prefix
        rcases hl with ⟨rfl | rfl, rfl⟩ | ⟨rfl | rfl, rfl⟩ | ⟨rfl | rfl, rfl⟩ <;> simp
      by_cases h1 : lower l = 'b'
      · exact letter 2 (Or.inl ⟨lb.1 h1, rfl⟩)
      · by_cases h2 : lower l = 'o'
        · exact letter 8 (Or.inr (Or.inl ⟨lo.1 h2, rfl⟩))
        · by_cases h3 : lower l = 'x'
          · exact letter 16 (Or.inr (Or.inr ⟨lx.1 h3, rfl⟩))
          · refine bare ?_
            unfold basePrefix
            simp only
            rw [if_neg h1, if_neg h2, if_neg h3]
  · exact ⟨[], 10, s, rfl, (no_prefix s h0).1, by unfold Prefix; simp, fun h => absurd h hs, fun _ => h0⟩

/-! ### `ParseUint` -/

theorem parseUint_lit (s : List Char) (v : Nat) (h : Unsigned s v) : parseUint s 0 =
    if v < 18446744073709551616 then .ok v else .error (.range, 18446744073709551615) := by
  obtain ⟨pre, base, cs, rfl, hp, hd, h1, h2, rfl⟩ := h
  rw [digits_iff] at hd
  obtain ⟨ha, hf, hh⟩ := hd
  obtain ⟨e1, e2⟩ := prefix_facts pre base cs hp ha h1 h2
  have hne : pre ++ cs ≠ [] := by
    intro hc
    rw [List.append_eq_nil_iff] at hc
    rw [h1 hc.2] at hc
    simp at hc
  have hb := prefix_base hp
  unfold parseUint
  rw [if_neg hne]
  simp only [if_true, e1]
  have hpd := parseDigits_all base (by omega) hb.2 cs ha 0 (by omega)
  rw [show ((0 : Nat) == 0) = true from rfl, hpd]
  have hv : valueFrom base 0 cs = value base cs := rfl
  rw [hv]
  by_cases hlt : value base cs < 18446744073709551616
  · rw [if_pos hlt]
    simp only
    rw [if_neg]
    rintro ⟨_, _, hc⟩
    rw [e2.2 ⟨hf, hh⟩] at hc
    cases hc
  · rw [if_neg hlt]

theorem parseUint_ok (s : List Char) (v : Nat) (h : parseUint s 0 = .ok v) : Unsigned s v ∧ v < 18446744073709551616 := by
  have hne : s ≠ [] := by rintro rfl; simp [parseUint] at h
  obtain ⟨pre, base, cs, hs, e1, hp, h1, h2⟩ := prefix_exists s hne
  have hb := prefix_base hp
  unfold parseUint at h
  rw [if_neg hne] at h
  simp only [if_true, e1] at h
  rw [show ((0 : Nat) == 0) = true from rfl] at h
  cases hpd : parseDigits true base cs 0 with
  | error e => rw [hpd] at h; simp at h
  | ok n =>
    rw [hpd] at h
    simp only at h
    have ha := parseDigits_ok base hb.2 cs 0 n hpd
    have hall := parseDigits_all base (by omega) hb.2 cs ha 0 (by omega)
    rw [hpd] at hall
    have hv : valueFrom base 0 cs = value base cs := rfl
    rw [hv] at hall
    by_cases hlt : value base cs < 18446744073709551616
    · rw [if_pos hlt] at hall
      have hn : n = value base cs := by simpa using hall
      by_cases hu : True ∧ '_' ∈ cs ∧ underscoreOK s = false
      · rw [if_pos hu] at h; simp at h
      · rw [if_neg hu] at h
        have hvn : v = n := by simpa using h.symm
        refine ⟨⟨pre, base, cs, hs, hp, ?_, h1, h2, by rw [hvn, hn]⟩, by omega⟩
        rw [digits_iff]
        refine ⟨ha, ?_⟩
        by_cases hm : '_' ∈ cs
        · have : underscoreOK s = true := by
            by_contra hc
            exact hu ⟨trivial, hm, by simpa using hc⟩
          rw [hs] at this
          exact (prefix_facts pre base cs hp ha h1 h2).2.1 this
        · refine ⟨fun i hi => absurd (List.mem_of_getElem? hi) hm, fun hc => absurd (List.mem_of_head? hc) hm⟩
    · rw [if_neg hlt] at hall; simp at hall

theorem parseUint_err (s : List Char) : (∃ v, parseUint s 0 = .ok v) ∨ parseUint s 0 = .error (.syntax, 0) ∨
    parseUint s 0 = .error (.range, 18446744073709551615) ∧ 17 ≤ s.length := by
  by_cases hne : s = []
  · right; left; rw [hne]; rfl
  · obtain ⟨pre, base, cs, hs, e1, hp, h1, h2⟩ := prefix_exists s hne
    have hb := prefix_base hp
    unfold parseUint
    rw [if_neg hne]
    simp only [if_true, e1]
    rw [show ((0 : Nat) == 0) = true from rfl]
    rcases parseDigits_err base cs 0 with ⟨v, h⟩ | h | h
    · rw [h]
      simp only
      split
      · exact Or.inr (Or.inl rfl)
      · exact Or.inl ⟨v, rfl⟩
    · rw [h]; exact Or.inr (Or.inl rfl)
    · rw [h]
      refine Or.inr (Or.inr ⟨rfl, ?_⟩)
      by_contra hl
      refine parseDigits_short base hb.2 cs 0 0 (by norm_num) ?_ h
      have : s.length = pre.length + cs.length := by rw [hs, List.length_append]
      omega

end Verif.Num
