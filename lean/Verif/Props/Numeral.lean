import Verif.Proof.Numeral
import Verif.Model.TileID

/-!
# C81: numbers in tile names
-/
namespace Verif.Num
open Verif.Go Verif.Tid

theorem prefix_chars {pre : List Char} {base : Nat} (h : Prefix pre base) {c : Char} (hc : c ∈ pre) :
    c ∈ ['0', 'b', 'B', 'o', 'O', 'x', 'X'] := by
  rcases h with ⟨e, _⟩ | ⟨e, _⟩ | ⟨e | e, _⟩ | ⟨e | e, _⟩ | ⟨e | e, _⟩ <;> subst e <;> simp at hc <;> simp <;> tauto

theorem digit_chars (c : Char) (d : Nat) (h : digit c = some d) : c ∉ ['+', '-', '/', ',', ' ', '_'] := by
  intro hc
  simp only [List.mem_cons, List.not_mem_nil, or_false] at hc
  rcases hc with rfl | rfl | rfl | rfl | rfl | rfl <;> revert h <;> simp [digit]

theorem unsigned_chars {s : List Char} {v : Nat} (h : Unsigned s v) {c : Char} (hc : c ∈ s) : c ∉ ['+', '-', '/', ',', ' '] := by
  obtain ⟨pre, base, cs, rfl, hp, hd, -, -, -⟩ := h
  rcases List.mem_append.1 hc with h | h
  · have := prefix_chars hp h
    simp only [List.mem_cons, List.not_mem_nil, or_false] at this
    rcases this with rfl | rfl | rfl | rfl | rfl | rfl | rfl <;> decide
  · by_cases hu : c = '_'
    · rw [hu]; decide
    · obtain ⟨d, h1, _⟩ := hd.digits c h hu
      have := digit_chars c d h1
      simp at this ⊢
      tauto

theorem parseInt_plain (s : List Char) (h : ∀ c, s.head? = some c → c ≠ '+' ∧ c ≠ '-') (hs : s ≠ []) : parseInt0 s =
    match parseUint s 0 with
    | .error (.syntax, _) => 0
    | .error (.range, un) => if un ≥ 9223372036854775808 then 9223372036854775807 else un
    | .ok un => if un ≥ 9223372036854775808 then 9223372036854775807 else un := by
  unfold parseInt0 parseInt
  rw [if_neg hs]
  obtain ⟨c, r, rfl⟩ := List.exists_cons_of_ne_nil hs
  have hc := h c rfl
  have key : ∀ v : Except (NumError × Int) Int, v = (match parseUint (c :: r) 0 with
      | .error (.syntax, _) => .error (.syntax, 0)
      | .error (.range, un) => if un ≥ 9223372036854775808 then .error (.range, 9223372036854775807) else .ok (un : Int)
      | .ok un => if un ≥ 9223372036854775808 then .error (.range, 9223372036854775807) else .ok (un : Int)) →
      (match v with | .ok v => v | .error (_, v) => v) = (match parseUint (c :: r) 0 with
      | .error (.syntax, _) => 0
      | .error (.range, un) => if un ≥ 9223372036854775808 then 9223372036854775807 else un
      | .ok un => if un ≥ 9223372036854775808 then 9223372036854775807 else un) := by
    rintro v rfl
    rcases parseUint (c :: r) 0 with ⟨⟨⟩, u⟩ | u
    · rfl
    · by_cases hu : u ≥ 9223372036854775808 <;> simp only [hu, if_true, if_false]
    · by_cases hu : u ≥ 9223372036854775808 <;> simp only [hu, if_true, if_false]
  apply key
  split
  rename_i neg ds heq
  split at heq
  · rename_i h2; simp at h2; exact absurd h2.1 hc.1
  · rename_i h2; simp at h2; exact absurd h2.1 hc.2
  · simp at heq
    obtain ⟨rfl, rfl⟩ := heq
    simp only [Bool.false_eq_true, not_false_eq_true, true_and, false_and, if_false]
    rfl

theorem parseInt_plus (s : List Char) : parseInt0 ('+' :: s) =
    match parseUint s 0 with
    | .error (.syntax, _) => 0
    | .error (.range, un) => if un ≥ 9223372036854775808 then 9223372036854775807 else un
    | .ok un => if un ≥ 9223372036854775808 then 9223372036854775807 else un := by
  unfold parseInt0 parseInt
  rw [if_neg (by simp)]
  simp only
  rcases hp : parseUint s 0 with ⟨⟨⟩, u⟩ | u
  · rfl
  · by_cases hu : u ≥ 9223372036854775808 <;>
      simp only [Bool.false_eq_true, not_false_eq_true, true_and, false_and, if_false, hu, if_true]
  · by_cases hu : u ≥ 9223372036854775808 <;>
      simp only [Bool.false_eq_true, not_false_eq_true, true_and, false_and, if_false, hu, if_true]

theorem parseInt_minus (s : List Char) : parseInt0 ('-' :: s) =
    match parseUint s 0 with
    | .error (.syntax, _) => 0
    | .error (.range, un) => if un > 9223372036854775808 then -9223372036854775808 else -(un : Int)
    | .ok un => if un > 9223372036854775808 then -9223372036854775808 else -(un : Int) := by
  unfold parseInt0 parseInt
  rw [if_neg (by simp)]
  simp only
  rcases hp : parseUint s 0 with ⟨⟨⟩, u⟩ | u
  · rfl
  · by_cases hu : u > 9223372036854775808 <;> simp only [not_true_eq_false, false_and, if_false, true_and, hu, if_true]
  · by_cases hu : u > 9223372036854775808 <;> simp only [not_true_eq_false, false_and, if_false, true_and, hu, if_true]

theorem unsigned_ne {s : List Char} {v : Nat} (h : Unsigned s v) : s ≠ [] := by
  obtain ⟨pre, base, cs, rfl, -, -, h1, -, -⟩ := h
  intro hc
  rw [List.append_eq_nil_iff] at hc
  rw [h1 hc.2] at hc
  simp at hc

/-- **C81.** A field that is an integer literal of Go is read as its value, or the nearest int64. -/
theorem C81_literal (s : List Char) (v : Int) (h : Literal s v) : parseInt0 s = nearest64 v := by
  obtain ⟨u, n, hu, h⟩ := h
  have hp := parseUint_lit u n hu
  have up : parseInt0 ('+' :: u) = nearest64 n := by
    rw [parseInt_plus, hp]
    unfold nearest64
    by_cases hn : n < 18446744073709551616
    · rw [if_pos hn]; simp only; split <;> omega
    · rw [if_neg hn]; simp only; split <;> omega
  rcases h with ⟨rfl | rfl, rfl⟩ | ⟨rfl, rfl⟩
  · rw [← up, parseInt_plus, parseInt_plain]
    · intro c hc
      have := unsigned_chars hu (List.mem_of_head? hc)
      simp at this
      tauto
    · exact unsigned_ne hu
  · exact up
  · rw [parseInt_minus, hp]
    unfold nearest64
    by_cases hn : n < 18446744073709551616
    · rw [if_pos hn]; simp only; split <;> omega
    · rw [if_neg hn]; simp only; split <;> omega

/-- **C81.** A field that is not a literal is read as 0; only if it is longer than 16 characters it may be read as one of the int64 bounds. -/
theorem C81_other (s : List Char) (h : ¬ ∃ v, Literal s v) :
    parseInt0 s = 0 ∨ 17 ≤ s.length ∧ (parseInt0 s = 2 ^ 63 - 1 ∨ parseInt0 s = -2 ^ 63) := by
  by_cases hs : s = []
  · left; rw [hs]; rfl
  obtain ⟨c, r, rfl⟩ := List.exists_cons_of_ne_nil hs
  by_cases h1 : c = '+'
  · subst h1
    rw [parseInt_plus]
    rcases parseUint_err r with ⟨v, e⟩ | e | ⟨e, hl⟩
    · exact absurd ⟨v, r, v, (parseUint_ok r v e).1, Or.inl ⟨Or.inr rfl, rfl⟩⟩ h
    · rw [e]; exact Or.inl rfl
    · rw [e]; right; exact ⟨by rw [List.length_cons]; omega, Or.inl rfl⟩
  · by_cases h2 : c = '-'
    · subst h2
      rw [parseInt_minus]
      rcases parseUint_err r with ⟨v, e⟩ | e | ⟨e, hl⟩
      · exact absurd ⟨-(v : Int), r, v, (parseUint_ok r v e).1, Or.inr ⟨rfl, rfl⟩⟩ h
      · rw [e]; exact Or.inl rfl
      · rw [e]; right; exact ⟨by rw [List.length_cons]; omega, Or.inr rfl⟩
    · rw [parseInt_plain _ (by intro x hx; simp at hx; subst hx; exact ⟨h1, h2⟩) hs]
      rcases parseUint_err (c :: r) with ⟨v, e⟩ | e | ⟨e, hl⟩
      · exact absurd ⟨v, c :: r, v, (parseUint_ok _ v e).1, Or.inl ⟨Or.inl rfl, rfl⟩⟩ h
      · rw [e]; exact Or.inl rfl
      · rw [e]; right; exact ⟨hl, Or.inl rfl⟩

theorem literal_chars {s : List Char} {v : Int} (h : Literal s v) : '/' ∉ s := by
  obtain ⟨u, n, hu, h⟩ := h
  have hu' : '/' ∉ u := fun hc => unsigned_chars hu hc (by simp)
  rcases h with ⟨rfl | rfl, _⟩ | ⟨rfl, _⟩ <;> simp [hu']

/-- **C81.** `Strtile` of three literals between slashes is the tile of their values (z modulo 2^64). -/
theorem C81_strtile (a b c : List Char) (x y z : Int) (ha : Literal a x) (hb : Literal b y) (hc : Literal c z) :
    strtile (a ++ '/' :: b ++ '/' :: c) = some ⟨nearest64 x, nearest64 y, (nearest64 z % 2 ^ 64).toNat⟩ := by
  unfold strtile
  rw [List.append_assoc, List.cons_append, split_append _ _ _ (literal_chars ha), split_append _ _ _ (literal_chars hb),
    split_no_sep _ _ (literal_chars hc)]
  unfold fromFields
  simp only [List.getElem?_cons_zero, List.getElem?_cons_succ]
  rw [C81_literal a x ha, C81_literal b y hb, C81_literal c z hc]
  rfl

/-- **C81.** `TileFromString` of three unsigned literals without underscores between any of its delimiters is the tile of their values. -/
theorem C81_tileFromString (a b c : List Char) (x y z : Nat) (ha : Unsigned a x) (hb : Unsigned b y) (hc : Unsigned c z)
    (ua : '_' ∉ a) (ub : '_' ∉ b) (uc : '_' ∉ c) (sep : Char) (hsep : sep ∈ ['-', '/', '_', ',', ' ']) :
    tileFromString (a ++ sep :: b ++ sep :: c) = some ⟨nearest64 x, nearest64 y, (nearest64 z % 2 ^ 64).toNat⟩ := by
  have no : ∀ (u : List Char) (v : Nat), Unsigned u v → '_' ∉ u → ∀ s ∈ ['-', '/', '_', ',', ' '], s ∉ u := by
    intro u v hu hun s hs hc
    have := unsigned_chars hu hc
    simp only [List.mem_cons, List.not_mem_nil, or_false] at hs this
    rcases hs with rfl | rfl | rfl | rfl | rfl
    · exact this (by simp)
    · exact this (by simp)
    · exact hun hc
    · exact this (by simp)
    · exact this (by simp)
  have lit : ∀ (u : List Char) (v : Nat), Unsigned u v → parseInt0 u = nearest64 v := fun u v hu =>
    C81_literal u v ⟨u, v, hu, Or.inl ⟨Or.inl rfl, rfl⟩⟩
  have hsplit : fromFields (split sep (a ++ sep :: b ++ sep :: c)) = some ⟨nearest64 x, nearest64 y, (nearest64 z % 2 ^ 64).toNat⟩ := by
    rw [List.append_assoc, List.cons_append, split_append _ _ _ (no a x ha ua _ hsep), split_append _ _ _ (no b y hb ub _ hsep),
      split_no_sep _ _ (no c z hc uc _ hsep)]
    unfold fromFields
    simp only [List.getElem?_cons_zero, List.getElem?_cons_succ]
    rw [lit a x ha, lit b y hb, lit c z hc]
    rfl
  have hmem : sep ∈ a ++ sep :: b ++ sep :: c := by simp
  have hnot : ∀ s ∈ ['-', '/', '_', ',', ' '], s ≠ sep → s ∉ a ++ sep :: b ++ sep :: c := by
    intro s hs hne hm
    simp only [List.mem_append, List.mem_cons] at hm
    rcases hm with (h | h | h) | h | h
    · exact no a x ha ua s hs h
    · exact hne h
    · exact no b y hb ub s hs h
    · exact hne h
    · exact no c z hc uc s hs h
  generalize a ++ sep :: b ++ sep :: c = val at *
  unfold tileFromString
  simp only
  simp only [List.mem_cons, List.not_mem_nil, or_false] at hsep
  rcases hsep with rfl | rfl | rfl | rfl | rfl
  · rw [if_pos hmem]; exact hsplit
  · rw [if_neg (hnot '-' (by simp) (by decide)), if_pos hmem]; exact hsplit
  · rw [if_neg (hnot '-' (by simp) (by decide)), if_neg (hnot '/' (by simp) (by decide)), if_pos hmem]; exact hsplit
  · rw [if_neg (hnot '-' (by simp) (by decide)), if_neg (hnot '/' (by simp) (by decide)), if_neg (hnot '_' (by simp) (by decide)), if_pos hmem]
    exact hsplit
  · rw [if_neg (hnot '-' (by simp) (by decide)), if_neg (hnot '/' (by simp) (by decide)), if_neg (hnot '_' (by simp) (by decide)),
      if_neg (hnot ',' (by simp) (by decide)), if_pos hmem]
    exact hsplit

theorem split_length (sep : Char) (s : List Char) : (split sep s).length = s.count sep + 1 := by
  induction s with
  | nil => rfl
  | cons c cs ih =>
    rw [split]
    cases h : split sep cs with
    | nil => exact absurd h (split_ne_nil sep cs)
    | cons w ws =>
      rw [h] at ih
      simp only
      by_cases hc : c = sep
      · rw [if_pos hc, List.length_cons, ih, hc, List.count_cons_self]
      · rw [if_neg hc, List.count_cons_of_ne hc]
        exact ih

/-- **C81.** `Strtile` panics exactly on texts with fewer than two slashes. -/
theorem C81_panics (s : List Char) : strtile s = none ↔ s.count '/' < 2 := by
  have h := split_length '/' s
  unfold strtile fromFields
  generalize split '/' s = l at h
  match l, h with
  | [], h => simp at h
  | [_], h => simp at h ⊢; omega
  | [_, _], h => simp at h ⊢; omega
  | _ :: _ :: _ :: t, h => simp at h ⊢; omega

/-- C81, what surprises: a number padded with zeros is octal, and read as 0 if it contains the digit 8 or 9. -/
theorem C81_zero_padded (ds : List Char) (hd : ∀ c ∈ ds, '0' ≤ c ∧ c ≤ '9') (hl : ds.length ≤ 15) (h89 : '8' ∈ ds ∨ '9' ∈ ds) :
    parseInt0 ('0' :: ds) = 0 := by
  have hn : ¬ ∃ v, Literal ('0' :: ds) v := by
    rintro ⟨v, u, n, ⟨pre, base, cs, hs, hp, hdig, h1, h2, -⟩, h⟩
    have hu : '0' :: ds = u := by
      rcases h with ⟨h | h, _⟩ | ⟨h, _⟩
      · exact h
      · simp at h
      · simp at h
    rw [hs] at hu
    have bad : ∀ l, pre ≠ ['0', l] ∨ '0' ≤ l ∧ l ≤ '9' := by
      intro l
      by_cases e : pre = ['0', l]
      · right
        rw [e] at hu
        simp at hu
        exact hd l (by rw [hu]; simp)
      · exact Or.inl e
    rcases hp with ⟨e, _⟩ | ⟨e, hb⟩ | ⟨e | e, _⟩ | ⟨e | e, _⟩ | ⟨e | e, _⟩
    · refine h2 e ?_
      rw [e, List.nil_append] at hu
      rw [← hu]; rfl
    · rw [e] at hu
      simp at hu
      subst hb hu
      rcases h89 with h | h
      · obtain ⟨d, h3, h4⟩ := hdig.digits _ h (by decide)
        have : digit '8' = some 8 := by decide
        rw [this] at h3
        simp at h3; omega
      · obtain ⟨d, h3, h4⟩ := hdig.digits _ h (by decide)
        have : digit '9' = some 9 := by decide
        rw [this] at h3
        simp at h3; omega
    all_goals
      rcases bad _ with h | h
      · exact h e
      · revert h; decide
  rcases C81_other _ hn with h | ⟨h, _⟩
  · exact h
  · rw [List.length_cons] at h; omega

/-- C81, literals: `0x1F`, `-0b1_01`, `017` and `1_000`. -/
theorem C81_example : Literal "0x1F".toList 31 ∧ Literal "-0b1_01".toList (-5) ∧ Literal "017".toList 15 ∧ Literal "1_000".toList 1000 := by
  have under : ∀ (a : Prop) (base : Nat) (cs : List Char), (∀ c ∈ cs, c ≠ '_' → ((digit c).getD base) < base) →
      (∀ i, i < cs.length → cs[i]? = some '_' → (cs[i + 1]? ≠ none ∧ cs[i + 1]? ≠ some '_') ∧ i ≠ 0) → Digits a base cs := by
    intro a base cs h1 h2
    refine ⟨fun c hc hu => ?_, fun i hi => ?_⟩
    · have := h1 c hc hu
      cases hd : digit c with
      | none => rw [hd] at this; simp at this
      | some d => rw [hd] at this; exact ⟨d, rfl, this⟩
    · obtain ⟨h, _⟩ := List.getElem?_eq_some_iff.1 hi
      obtain ⟨⟨h3, h4⟩, h5⟩ := h2 i h hi
      obtain ⟨c, hc⟩ := Option.ne_none_iff_exists'.1 h3
      exact ⟨⟨c, hc, fun e => h4 (by rw [hc, e])⟩, fun h => absurd h h5⟩
  refine ⟨⟨"0x1F".toList, 31, ⟨['0', 'x'], 16, ['1', 'F'], by decide, by unfold Prefix; simp, under _ _ _ (by decide) (by decide), by decide,
    by decide, by decide⟩, Or.inl ⟨Or.inl rfl, rfl⟩⟩,
    ⟨"0b1_01".toList, 5, ⟨['0', 'b'], 2, ['1', '_', '0', '1'], by decide, by unfold Prefix; simp, under _ _ _ (by decide) (by decide), by decide,
    by decide, by decide⟩, Or.inr ⟨by decide, rfl⟩⟩,
    ⟨"017".toList, 15, ⟨['0'], 8, ['1', '7'], by decide, by unfold Prefix; simp, under _ _ _ (by decide) (by decide), by decide,
    by decide, by decide⟩, Or.inl ⟨Or.inl rfl, rfl⟩⟩,
    ⟨"1_000".toList, 1000, ⟨[], 10, ['1', '_', '0', '0', '0'], by decide, by unfold Prefix; simp, under _ _ _ (by decide) (by decide), by decide,
    by decide, by decide⟩, Or.inl ⟨Or.inl rfl, rfl⟩⟩⟩

example : strtile "08/010/0x10".toList = some ⟨0, 8, 16⟩ := by decide +kernel

end Verif.Num
