import Verif.Model.StyleColor
import Verif.Proof.Regex
import Verif.Proof.Strconv
import Verif.Proof.GoFloat
import Verif.Proof.F64
import Mathlib.Tactic.IntervalCases

/-! # Lemmas about colour strings -/
namespace Verif.Style
open Verif.Go Verif.Regex

/-- `c` is the hexadecimal digit of value `v`, in either case. -/
def HexDigit (c : Char) (v : Nat) : Prop :=
  "0123456789abcdef".toList[v]? = some c ∨ "0123456789ABCDEF".toList[v]? = some c

theorem hexDigit_lt {c : Char} {v : Nat} (h : HexDigit c v) : v < 16 := by
  rcases h with h | h
  · have := (List.getElem?_eq_some_iff.1 h).1; simpa using this
  · have := (List.getElem?_eq_some_iff.1 h).1; simpa using this

theorem hexDigit_table : ∀ v, v < 16 → ∀ c, (c ∈ "0123456789abcdef".toList[v]? ∨ c ∈ "0123456789ABCDEF".toList[v]?) →
    digitVal c = some v ∧ c.toNat < 128 ∧ c ≠ '_' := by
  intro v hv c h
  interval_cases v <;> (rcases h with h | h <;> simp at h <;> subst h <;> decide)

theorem hexDigit_props {c : Char} {v : Nat} (h : HexDigit c v) :
    digitVal c = some v ∧ c.toNat < 128 ∧ c ≠ '_' :=
  hexDigit_table v (hexDigit_lt h) c h

theorem char_eq_of_toNat {c : Char} {n : Nat} (h : c.toNat = n) : c = Char.ofNat n := by
  rw [← h, Char.ofNat_toNat]

theorem char_le_iff (a b : Char) : a ≤ b ↔ a.toNat ≤ b.toNat := Iff.rfl

theorem toNat_ofNat {n : Nat} (h : n < 256) : (Char.ofNat n).toNat = n := by
  have hv : n.isValidChar := by left; omega
  unfold Char.ofNat
  rw [dif_pos hv]
  rfl

theorem lower_toNat (c : Char) : (lower c).toNat = if 65 ≤ c.toNat ∧ c.toNat ≤ 90 then c.toNat + 32 else c.toNat := by
  unfold lower
  simp only [char_le_iff, show 'A'.toNat = 65 from rfl, show 'Z'.toNat = 90 from rfl]
  split
  · rename_i h
    exact toNat_ofNat (by omega)
  · rfl

/-- a character `ParseUint` base 16 accepts is a hexadecimal digit -/
theorem hexDigit_of_digitVal {c : Char} {v : Nat} (h : digitVal c = some v) (hv : v < 16) : HexDigit c v := by
  have hL := lower_toNat c
  unfold digitVal at h
  simp only [char_le_iff, show '0'.toNat = 48 from rfl, show '9'.toNat = 57 from rfl,
    show 'a'.toNat = 97 from rfl, show 'z'.toNat = 122 from rfl] at h
  generalize (lower c).toNat = L at h hL
  split at h
  · rename_i h1
    cases h
    have : ∃ n, c.toNat = n ∧ 48 ≤ n ∧ n ≤ 57 := ⟨_, rfl, h1⟩
    obtain ⟨n, e, h2, h3⟩ := this
    rw [e, char_eq_of_toNat e]
    clear e h1 hv hL
    interval_cases n <;> (left; decide)
  · split at h
    · rename_i h1 h2
      cases h
      have : ∃ n, c.toNat = n ∧ ((65 ≤ n ∧ n ≤ 70) ∨ (97 ≤ n ∧ n ≤ 102)) := by
        refine ⟨_, rfl, ?_⟩
        split at hL <;> omega
      have hLv : L - 97 + 10 = (if c.toNat < 97 then c.toNat - 55 else c.toNat - 87) := by
        split at hL <;> split <;> omega
      rw [hLv]
      obtain ⟨n, e, h3⟩ := this
      rw [e, char_eq_of_toNat e]
      clear e h1 h2 hv hLv hL
      rcases h3 with h3 | h3
      · obtain ⟨h3, h4⟩ := h3
        interval_cases n <;> (right; decide)
      · obtain ⟨h3, h4⟩ := h3
        interval_cases n <;> (left; decide)
    · cases h

theorem parseUint_pair {x y : Char} {a b : Nat} (hx : HexDigit x a) (hy : HexDigit y b) :
    parseUint [x, y] 16 = .ok (16 * a + b) := by
  obtain ⟨h1, _, h2⟩ := hexDigit_props hx
  obtain ⟨h3, _, h4⟩ := hexDigit_props hy
  have := hexDigit_lt hx
  have := hexDigit_lt hy
  simp only [parseUint, List.cons_ne_nil, if_false, parseDigits, h1, h3, h2, h4,
    show ¬ (16 = 0) by decide, show (16 == 0) = false by decide]
  have e1 : ¬ (a ≥ 16) := by omega
  have e2 : ¬ (b ≥ 16) := by omega
  have e3 : ¬ (0 * 16 + a ≥ 18446744073709551616) := by omega
  have e4 : ¬ ((0 * 16 + a) * 16 + b ≥ 18446744073709551616) := by omega
  simp only [e1, e2, e3, e4, if_false, false_and]
  congr 1; ring

theorem parseUint_pair_inv {x y : Char} {n : Nat} (h : parseUint [x, y] 16 = .ok n) :
    ∃ a b, HexDigit x a ∧ HexDigit y b := by
  have hx : ∀ (c : Char) (v : Nat) (rest : List Char) (m : Nat) (n : Nat),
      parseDigits false 16 (c :: rest) m = .ok n → ∃ a m', HexDigit c a ∧ parseDigits false 16 rest m' = .ok n := by
    intro c _ rest m n h
    simp only [parseDigits, Bool.false_eq_true, and_false, if_false] at h
    split at h
    · cases h
    · rename_i d hd
      split at h
      · cases h
      · rename_i hlt
        split at h
        · cases h
        · exact ⟨d, _, hexDigit_of_digitVal hd (by omega), h⟩
  simp only [parseUint, List.cons_ne_nil, if_false, show ¬ (16 = 0) by decide,
    show (16 == 0) = false by decide] at h
  split at h
  · cases h
  · rename_i m hm
    obtain ⟨a, m', ha, h'⟩ := hx x 0 [y] 0 m hm
    obtain ⟨b, _, hb, _⟩ := hx y 0 [] m' m h'
    exact ⟨a, b, ha, hb⟩

theorem utf8_ascii {c : Char} (h : c.toNat < 128) : (utf8 c).map Char.ofNat = [c] := by
  unfold utf8
  simp only [h, if_true, List.map_cons, List.map_nil, Char.ofNat_toNat]

theorem char_lt (c : Char) : c.toNat < 1114112 := by
  have := c.valid
  rcases this with h | ⟨_, h⟩
  · show c.val.toNat < _
    have : c.val.toNat < 55296 := h
    omega
  · exact h

theorem utf8_high {c : Char} (h : ¬ c.toNat < 128) : utf8 c ≠ [] ∧ ∀ b ∈ (utf8 c).map Char.ofNat, 128 ≤ b.toNat := by
  have hc := char_lt c
  unfold utf8
  simp only [h, if_false]
  have key : ∀ n, 128 ≤ n → n < 256 → 128 ≤ (Char.ofNat n).toNat := by
    intro n h1 h2
    rw [toNat_ofNat h2]; exact h1
  split
  · refine ⟨by simp, ?_⟩
    intro b hb
    simp at hb
    rcases hb with rfl | rfl <;> (apply key <;> omega)
  · split
    · refine ⟨by simp, ?_⟩
      intro b hb
      simp at hb
      rcases hb with rfl | rfl | rfl <;> (apply key <;> omega)
    · refine ⟨by simp, ?_⟩
      intro b hb
      simp at hb
      rcases hb with rfl | rfl | rfl | rfl <;> (apply key <;> omega)

theorem bytesOf_cons (c : Char) (s : List Char) : bytesOf (c :: s) = (utf8 c).map Char.ofNat ++ bytesOf s := rfl

theorem bytesOf_ascii : ∀ {s : List Char}, (∀ c ∈ s, c.toNat < 128) → bytesOf s = s
  | [], _ => rfl
  | c :: s, h => by
    rw [bytesOf_cons, utf8_ascii (h c (by simp)), bytesOf_ascii (fun d hd => h d (by simp [hd]))]; rfl

theorem ascii_of_bytes {s : List Char} (h : ∀ b ∈ bytesOf s, b.toNat < 128) : ∀ c ∈ s, c.toNat < 128 := by
  intro c hc
  by_contra hn
  obtain ⟨h1, h2⟩ := utf8_high hn
  cases hu : utf8 c with
  | nil => exact h1 hu
  | cons b bs =>
    have hb : Char.ofNat b ∈ (utf8 c).map Char.ofNat := by rw [hu]; simp
    have := h2 _ hb
    have := h (Char.ofNat b) (List.mem_flatMap.2 ⟨c, hc, hb⟩)
    omega

theorem hexFragments_ok {x1 x2 x3 x4 x5 x6 : Char} {a1 a2 a3 a4 a5 a6 : Nat} (h1 : HexDigit x1 a1)
    (h2 : HexDigit x2 a2) (h3 : HexDigit x3 a3) (h4 : HexDigit x4 a4) (h5 : HexDigit x5 a5) (h6 : HexDigit x6 a6) :
    hexFragments [x1, x2, x3, x4, x5, x6] = .ok (16 * a1 + a2, 16 * a3 + a4, 16 * a5 + a6) := by
  have l1 := hexDigit_lt h1; have l2 := hexDigit_lt h2; have l3 := hexDigit_lt h3
  have l4 := hexDigit_lt h4; have l5 := hexDigit_lt h5; have l6 := hexDigit_lt h6
  simp only [hexFragments, List.drop_zero, List.drop_succ_cons, List.take_succ_cons, List.take_zero,
    parseUint_pair h1 h2, parseUint_pair h3 h4, parseUint_pair h5 h6]
  rw [Nat.mod_eq_of_lt (by omega), Nat.mod_eq_of_lt (by omega), Nat.mod_eq_of_lt (by omega)]

theorem hexFragments_inv {x1 x2 x3 x4 x5 x6 : Char} {r : Nat × Nat × Nat}
    (h : hexFragments [x1, x2, x3, x4, x5, x6] = .ok r) :
    (∃ a, HexDigit x1 a) ∧ (∃ a, HexDigit x2 a) ∧ (∃ a, HexDigit x3 a) ∧ (∃ a, HexDigit x4 a) ∧
    (∃ a, HexDigit x5 a) ∧ (∃ a, HexDigit x6 a) := by
  simp only [hexFragments, List.drop_zero, List.drop_succ_cons, List.take_succ_cons, List.take_zero] at h
  split at h
  · cases h
  · rename_i n1 e1
    split at h
    · cases h
    · rename_i n2 e2
      split at h
      · cases h
      · rename_i n3 e3
        obtain ⟨a1, a2, p1, p2⟩ := parseUint_pair_inv e1
        obtain ⟨a3, a4, p3, p4⟩ := parseUint_pair_inv e2
        obtain ⟨a5, a6, p5, p6⟩ := parseUint_pair_inv e3
        exact ⟨⟨_, p1⟩, ⟨_, p2⟩, ⟨_, p3⟩, ⟨_, p4⟩, ⟨_, p5⟩, ⟨_, p6⟩⟩

theorem list_len6 {α : Type} {l : List α} (h : l.length = 6) : ∃ a b c d e f, l = [a, b, c, d, e, f] := by
  rcases l with _ | ⟨a, _ | ⟨b, _ | ⟨c, _ | ⟨d, _ | ⟨e, _ | ⟨f, _ | ⟨g, l⟩⟩⟩⟩⟩⟩⟩ <;> simp at h
  exact ⟨a, b, c, d, e, f, rfl⟩

theorem list_len3 {α : Type} {l : List α} (h : l.length = 3) : ∃ a b c, l = [a, b, c] := by
  rcases l with _ | ⟨a, _ | ⟨b, _ | ⟨c, _ | ⟨d, l⟩⟩⟩⟩ <;> simp at h
  exact ⟨a, b, c, rfl⟩

theorem digitVal_digit {c : Char} (h : c.isDigit = true) : digitVal c = some (c.toNat - 48) ∧ c.toNat - 48 < 10 := by
  have h' : 48 ≤ c.toNat ∧ c.toNat ≤ 57 := by
    simp [Char.isDigit] at h
    exact ⟨h.1, h.2⟩
  unfold digitVal
  simp only [char_le_iff, show '0'.toNat = 48 from rfl, show '9'.toNat = 57 from rfl, h', and_self, if_true]
  exact ⟨trivial, by omega⟩

/-- The digit loop on any digit string: the number, unless it exceeds 64 bits. -/
theorem parseDigits_digits : ∀ (ds : List Char), (∀ c ∈ ds, c.isDigit = true) → ∀ n,
    (n * 10 ^ ds.length + digitsVal ds < 18446744073709551616 →
      parseDigits false 10 ds n = .ok (n * 10 ^ ds.length + digitsVal ds)) ∧
    (18446744073709551616 ≤ n * 10 ^ ds.length + digitsVal ds → n < 18446744073709551616 →
      ∃ e, parseDigits false 10 ds n = .error e)
  | [], _, n => by
    simp only [List.length_nil, pow_zero, mul_one, digitsVal, List.foldl_nil, add_zero, parseDigits]
    exact ⟨fun _ => trivial, fun h h' => absurd h (not_le.2 h')⟩
  | c :: ds, h, n => by
    obtain ⟨hv, hl⟩ := digitVal_digit (h c (by simp))
    have ih := parseDigits_digits ds (fun d hd => h d (by simp [hd])) (n * 10 + (c.toNat - 48))
    have e : digitsVal (c :: ds) = (c.toNat - 48) * 10 ^ ds.length + digitsVal ds := by
      have := digitsVal_append [c] ds
      simpa [digitsVal] using this
    have e2 : n * 10 ^ (c :: ds).length + digitsVal (c :: ds)
        = (n * 10 + (c.toNat - 48)) * 10 ^ ds.length + digitsVal ds := by
      rw [e, List.length_cons, pow_succ]; ring
    rw [e2]
    simp only [parseDigits, Bool.false_eq_true, and_false, if_false, hv, ge_iff_le, not_le.2 hl]
    have hpos : 0 < 10 ^ ds.length := by positivity
    constructor
    · intro hlt
      have : ¬ (18446744073709551616 ≤ n * 10 + (c.toNat - 48)) := by
        have : n * 10 + (c.toNat - 48) ≤ (n * 10 + (c.toNat - 48)) * 10 ^ ds.length := Nat.le_mul_of_pos_right _ hpos
        omega
      simp only [this, if_false]
      exact ih.1 hlt
    · intro hge _
      by_cases hb : 18446744073709551616 ≤ n * 10 + (c.toNat - 48)
      · simp only [hb, if_true]; exact ⟨_, rfl⟩
      · simp only [hb, if_false]
        exact ih.2 hge (by omega)

theorem parseUint8_digits {ds : List Char} (hn : ds ≠ []) (h : ∀ c ∈ ds, c.isDigit = true) :
    parseUint8 ds = if digitsVal ds ≤ 255 then .ok (digitsVal ds) else .error .err := by
  have := parseDigits_digits ds h 0
  simp only [zero_mul, zero_add] at this
  unfold parseUint8 parseUint
  simp only [hn, if_false, show ¬ (10 = 0) by decide, show (10 == 0) = false by decide, false_and]
  by_cases hlt : digitsVal ds < 18446744073709551616
  · rw [this.1 hlt]
  · obtain ⟨e, he⟩ := this.2 (by omega) (by norm_num)
    rw [he, if_neg (by omega)]

theorem spanSign_digit {s : List Char} (h : ∀ c ∈ s.head?, c.isDigit = true ∨ c = '.') : spanSign s = (false, s) := by
  cases s with
  | nil => rfl
  | cons c s =>
    rcases h c (by simp) with h | h
    · exact spanSign_of_digit (s := c :: s) (by simpa using h)
    · subst h; simp [spanSign]

/-- A digit string parses to its number, rounded. -/
theorem parseFloat_digits (rnd : ℚ → ℚ) {ds : List Char} (hn : ds ≠ []) (h : ∀ c ∈ ds, c.isDigit = true) :
    parseFloat rnd ds = some (rnd (digitsVal ds)) := by
  have hs : spanSign ds = (false, ds) := spanSign_digit (fun c hc => .inl (h c (by
    cases ds with
    | nil => simp at hc
    | cons d ds => simp at hc; simp [hc])))
  have hd := spanDigits_run ds [] h (by simp)
  rw [List.append_nil] at hd
  unfold parseFloat
  simp only [hs, parseUFloat, hd, parseExp, hn, false_and, if_false]
  simp

/-- A decimal with a point parses to its value, rounded, if it has a digit at all. -/
theorem parseFloat_point (rnd : ℚ → ℚ) {a b : List Char} (hn : a ≠ [] ∨ b ≠ []) (ha : ∀ c ∈ a, c.isDigit = true)
    (hb : ∀ c ∈ b, c.isDigit = true) :
    parseFloat rnd (a ++ '.' :: b) = some (rnd ((digitsVal (a ++ b) : ℚ) / 10 ^ b.length)) := by
  have hs : spanSign (a ++ '.' :: b) = (false, a ++ '.' :: b) := by
    apply spanSign_digit
    intro c hc
    cases a with
    | nil => simp at hc; exact .inr hc.symm
    | cons d a => simp at hc; exact .inl (ha c (by simp [hc]))
  have hd := spanDigits_run a ('.' :: b) ha (by simp)
  have hd2 := spanDigits_run b [] hb (by simp)
  rw [List.append_nil] at hd2
  have hne : ¬ (a = [] ∧ b = []) := by tauto
  unfold parseFloat
  simp only [hs, parseUFloat, hd, hd2, parseExp, hne, if_false]
  simp

theorem parseFloat_none (rnd : ℚ → ℚ) : parseFloat rnd [] = none ∧ parseFloat rnd ['.'] = none := by
  constructor <;> simp [parseFloat, parseUFloat, spanSign, spanDigits]

end Verif.Style
