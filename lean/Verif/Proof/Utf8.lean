import Verif.Model.Utf8
import Verif.Spec.Utf8
import Mathlib.Tactic

namespace Verif.Utf8

open Verif.Doc

theorem char_range (c : Char) : c.toNat < 0xD800 ∨ (0xDFFF < c.toNat ∧ c.toNat < 0x110000) := c.valid

theorem encoded_charBytes (c : Char) : Encoded c (charBytes c) := by
  have h := char_range c
  unfold Encoded charBytes
  by_cases h1 : c.toNat < 0x80
  · rw [if_pos h1]; exact .inl ⟨by omega, rfl⟩
  rw [if_neg h1]
  by_cases h2 : c.toNat < 0x800
  · rw [if_pos h2]; exact .inr (.inl ⟨by omega, by omega, c.toNat / 64, c.toNat % 64, by omega, by omega, by omega, rfl⟩)
  rw [if_neg h2]
  by_cases h3 : c.toNat < 0x10000
  · rw [if_pos h3]
    exact .inr (.inr (.inl ⟨by omega, by omega, c.toNat / 4096, c.toNat / 64 % 64, c.toNat % 64, by omega, by omega, by omega, by omega, rfl⟩))
  rw [if_neg h3]
  exact .inr (.inr (.inr ⟨by omega, c.toNat / 262144, c.toNat / 4096 % 64, c.toNat / 64 % 64, c.toNat % 64,
    by omega, by omega, by omega, by omega, by omega, rfl⟩))

theorem Encoded.eq {c : Char} {e : List Nat} (h : Encoded c e) : e = charBytes c := by
  unfold charBytes
  rcases h with ⟨h, rfl⟩ | ⟨h1, h2, a, b, ha, hb, hn, rfl⟩ | ⟨h1, h2, a, b, d, ha, hb, hd, hn, rfl⟩ |
    ⟨h1, a, b, d, f, ha, hb, hd, hf, hn, rfl⟩
  · rw [if_pos (by omega)]
  · rw [if_neg (by omega), if_pos (by omega)]
    rw [show c.toNat / 64 = a by omega, show c.toNat % 64 = b by omega]
  · rw [if_neg (by omega), if_neg (by omega), if_pos (by omega)]
    rw [show c.toNat / 4096 = a by omega, show c.toNat / 64 % 64 = b by omega, show c.toNat % 64 = d by omega]
  · rw [if_neg (by omega), if_neg (by omega), if_neg (by omega)]
    rw [show c.toNat / 262144 = a by omega, show c.toNat / 4096 % 64 = b by omega, show c.toNat / 64 % 64 = d by omega,
      show c.toNat % 64 = f by omega]

theorem rune_enc {c : Char} {e : List Nat} (h : Encoded c e) (r : List Nat) : rune (e ++ r) = (c.toNat, e.length) := by
  have hc := char_range c
  rcases h with ⟨h, rfl⟩ | ⟨h1, h2, a, b, ha, hb, hn, rfl⟩ | ⟨h1, h2, a, b, d, ha, hb, hd, hn, rfl⟩ |
    ⟨h1, a, b, d, f, ha, hb, hd, hf, hn, rfl⟩
  · simp only [List.cons_append, List.nil_append, rune]
    rw [if_pos (by omega)]; rfl
  · simp only [List.cons_append, List.nil_append, rune]
    rw [if_neg (by omega), if_neg (by omega), if_neg (by split_ifs <;> omega), if_pos (by omega)]
    exact Prod.ext (by simp only; omega) rfl
  · simp only [List.cons_append, List.nil_append, rune]
    rw [if_neg (by omega), if_neg (by omega), if_neg (by split_ifs <;> omega), if_neg (by omega), if_neg (by omega), if_pos (by omega)]
    exact Prod.ext (by simp only; omega) rfl
  · simp only [List.cons_append, List.nil_append, rune]
    rw [if_neg (by omega), if_neg (by omega), if_neg (by split_ifs <;> omega), if_neg (by omega), if_neg (by omega), if_neg (by omega),
      if_neg (by omega)]
    exact Prod.ext (by simp only; omega) rfl

theorem ofNat_toNat {n : Nat} (h : n < 0xD800 ∨ (0xDFFF < n ∧ n < 0x110000)) : (Char.ofNat n).toNat = n := by
  have hv : n.isValidChar := h
  rw [Char.ofNat, dif_pos hv]
  rfl

theorem rune_cases (b0 : Nat) (p : List Nat) : rune (b0 :: p) = (0xFFFD, 1) ∨
    ∃ c e r, Encoded c e ∧ b0 :: p = e ++ r := by
  simp only [rune]
  by_cases h0 : b0 < 0x80
  · have := @ofNat_toNat b0 (by omega)
    exact .inr ⟨Char.ofNat b0, [b0], p, .inl ⟨by omega, by rw [this]⟩, rfl⟩
  rw [if_neg h0]
  by_cases h1 : b0 < 0xC2 ∨ 0xF4 < b0
  · rw [if_pos h1]; exact .inl rfl
  rw [if_neg h1]
  cases p with
  | nil => exact .inl rfl
  | cons b1 p =>
    simp only
    by_cases h2 : b1 < (if b0 = 0xE0 then 0xA0 else if b0 = 0xF0 then 0x90 else 0x80) ∨
            (if b0 = 0xED then 0x9F else if b0 = 0xF4 then 0x8F else 0xBF) < b1
    · rw [if_pos h2]; exact .inl rfl
    rw [if_neg h2]
    have hb1 : 0x80 ≤ b1 ∧ b1 ≤ 0xBF ∧ (b0 = 0xE0 → 0xA0 ≤ b1) ∧ (b0 = 0xF0 → 0x90 ≤ b1) ∧ (b0 = 0xED → b1 ≤ 0x9F) ∧ (b0 = 0xF4 → b1 ≤ 0x8F) := by
      split_ifs at h2 <;> omega
    by_cases h3 : b0 < 0xE0
    · refine .inr ⟨Char.ofNat ((b0 - 0xC0) * 64 + (b1 - 0x80)), [b0, b1], p, ?_, rfl⟩
      unfold Encoded
      rw [ofNat_toNat (by omega)]
      exact .inr (.inl ⟨by omega, by omega, b0 - 0xC0, b1 - 0x80, by omega, by omega, rfl, by
        rw [show 0xC0 + (b0 - 0xC0) = b0 by omega, show 0x80 + (b1 - 0x80) = b1 by omega]⟩)
    rw [if_neg h3]
    cases p with
    | nil => exact .inl rfl
    | cons b2 p =>
      simp only
      by_cases h4 : b2 < 0x80 ∨ 0xBF < b2
      · rw [if_pos h4]; exact .inl rfl
      rw [if_neg h4]
      by_cases h5 : b0 < 0xF0
      · refine .inr ⟨Char.ofNat (((b0 - 0xE0) * 64 + (b1 - 0x80)) * 64 + (b2 - 0x80)), [b0, b1, b2], p, ?_, rfl⟩
        unfold Encoded
        rw [ofNat_toNat (by omega)]
        exact .inr (.inr (.inl ⟨by omega, by omega, b0 - 0xE0, b1 - 0x80, b2 - 0x80, by omega, by omega, by omega, rfl, by
          rw [show 0xE0 + (b0 - 0xE0) = b0 by omega, show 0x80 + (b1 - 0x80) = b1 by omega, show 0x80 + (b2 - 0x80) = b2 by omega]⟩))
      rw [if_neg h5]
      cases p with
      | nil => exact .inl rfl
      | cons b3 p =>
        simp only
        by_cases h6 : b3 < 0x80 ∨ 0xBF < b3
        · rw [if_pos h6]; exact .inl rfl
        refine .inr ⟨Char.ofNat ((((b0 - 0xF0) * 64 + (b1 - 0x80)) * 64 + (b2 - 0x80)) * 64 + (b3 - 0x80)), [b0, b1, b2, b3], p, ?_, rfl⟩
        unfold Encoded
        rw [ofNat_toNat (by omega)]
        exact .inr (.inr (.inr ⟨by omega, b0 - 0xF0, b1 - 0x80, b2 - 0x80, b3 - 0x80, by omega, by omega, by omega, by omega, rfl, by
          rw [show 0xF0 + (b0 - 0xF0) = b0 by omega, show 0x80 + (b1 - 0x80) = b1 by omega, show 0x80 + (b2 - 0x80) = b2 by omega,
            show 0x80 + (b3 - 0x80) = b3 by omega]⟩))

theorem Encoded.ne_nil {c : Char} {e : List Nat} (h : Encoded c e) : e ≠ [] := by
  rcases h with ⟨h, rfl⟩ | ⟨h1, h2, a, b, ha, hb, hn, rfl⟩ | ⟨h1, h2, a, b, d, ha, hb, hd, hn, rfl⟩ |
    ⟨h1, a, b, d, f, ha, hb, hd, hf, hn, rfl⟩ <;> simp

theorem runes_enc {c : Char} {e : List Nat} (h : Encoded c e) (n : Nat) (r : List Nat) : runes (n + 1) (e ++ r) = c :: runes n r := by
  have h1 := rune_enc h r
  have h2 : e ++ r ≠ [] := by simp [h.ne_nil]
  cases hp : e ++ r with
  | nil => exact absurd hp h2
  | cons b p =>
    simp only [runes]
    rw [← hp, h1]
    simp only [List.drop_left, Char.ofNat_toNat]

theorem runes_bad {b : Nat} {p : List Nat} (h : ¬ ∃ c e r, Encoded c e ∧ b :: p = e ++ r) (n : Nat) :
    runes (n + 1) (b :: p) = '\uFFFD' :: runes n p := by
  have := (rune_cases b p).resolve_right h
  simp only [runes, this, List.drop_succ_cons, List.drop_zero]

theorem runes_repaired {p : List Nat} {s : Str} (h : Repaired p s) : ∀ n, p.length ≤ n → runes n p = s := by
  induction h with
  | nil => intro n _; cases n <;> rfl
  | @cons c e p s he _ ih =>
    intro n hn
    have := List.length_pos_iff.2 he.ne_nil
    rw [List.length_append] at hn
    obtain ⟨m, rfl⟩ : ∃ m, n = m + 1 := ⟨n - 1, by omega⟩
    rw [runes_enc he, ih m (by omega)]
  | @bad b p s hb _ ih =>
    intro n hn
    rw [List.length_cons] at hn
    obtain ⟨m, rfl⟩ : ∃ m, n = m + 1 := ⟨n - 1, by omega⟩
    rw [runes_bad hb, ih m (by omega)]

theorem repaired_text (p : List Nat) : Repaired p (text p) := by
  suffices h : ∀ n p, p.length ≤ n → ∃ s, Repaired p s by
    obtain ⟨s, hs⟩ := h p.length p le_rfl
    have : text p = s := runes_repaired hs _ le_rfl
    rw [this]; exact hs
  intro n
  induction n with
  | zero => intro p hp; cases p with
    | nil => exact ⟨[], .nil⟩
    | cons => simp at hp
  | succ n ih =>
    intro p hp
    cases p with
    | nil => exact ⟨[], .nil⟩
    | cons b p =>
      by_cases h : ∃ c e r, Encoded c e ∧ b :: p = e ++ r
      · obtain ⟨c, e, r, he, hr⟩ := h
        have h1 := List.length_pos_iff.2 he.ne_nil
        have h2 : r.length ≤ n := by
          have := congrArg List.length hr
          rw [List.length_append] at this
          omega
        obtain ⟨s, hs⟩ := ih r h2
        rw [hr]
        exact ⟨_, .cons he hs⟩
      · obtain ⟨s, hs⟩ := ih p (by simpa using hp)
        exact ⟨_, .bad h hs⟩

theorem text_eq_iff {p : List Nat} {s : Str} : text p = s ↔ Repaired p s :=
  ⟨fun h => h ▸ repaired_text p, fun h => runes_repaired h _ le_rfl⟩

theorem repaired_of_utf8 {p : List Nat} {s : Str} (h : WellFormed p s) : Repaired p s := by
  induction h with
  | nil => exact .nil
  | cons h _ ih => exact .cons h ih

theorem utf8_bytes (s : Str) : WellFormed (bytes s) s := by
  induction s with
  | nil => exact .nil
  | cons c s ih => exact .cons (encoded_charBytes c) ih

theorem utf8_eq {p : List Nat} {s : Str} (h : WellFormed p s) : p = bytes s := by
  induction h with
  | nil => rfl
  | cons h _ ih => rw [ih, h.eq]; rfl

theorem text_bytes (s : Str) : text (bytes s) = s := text_eq_iff.2 (repaired_of_utf8 (utf8_bytes s))

theorem text_bytes_append (s : Str) (p : List Nat) : text (bytes s ++ p) = s ++ text p := by
  rw [text_eq_iff]
  induction s with
  | nil => exact repaired_text p
  | cons c s ih =>
    have : bytes (c :: s) ++ p = charBytes c ++ (bytes s ++ p) := by simp [bytes]
    rw [this]
    exact .cons (encoded_charBytes c) ih

theorem bytes_append (s t : Str) : bytes (s ++ t) = bytes s ++ bytes t := by simp [bytes]

end Verif.Utf8
