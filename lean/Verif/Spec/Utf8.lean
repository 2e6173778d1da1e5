import Verif.Model.Doc

/-!
# UTF-8 (RFC 3629)
-/
namespace Verif.Utf8

open Verif.Doc

/-- The bytes of a character: the shortest of the four forms that has room for its number. -/
def Encoded (ch : Char) (e : List Nat) : Prop :=
  (ch.toNat ≤ 0x7F ∧ e = [ch.toNat]) ∨
  (0x80 ≤ ch.toNat ∧ ch.toNat ≤ 0x7FF ∧ ∃ a b, a < 32 ∧ b < 64 ∧ ch.toNat = a * 64 + b ∧ e = [0xC0 + a, 0x80 + b]) ∨
  (0x800 ≤ ch.toNat ∧ ch.toNat ≤ 0xFFFF ∧ ∃ a b c, a < 16 ∧ b < 64 ∧ c < 64 ∧ ch.toNat = (a * 64 + b) * 64 + c ∧
    e = [0xE0 + a, 0x80 + b, 0x80 + c]) ∨
  (0x10000 ≤ ch.toNat ∧ ∃ a b c d, a < 8 ∧ b < 64 ∧ c < 64 ∧ d < 64 ∧ ch.toNat = ((a * 64 + b) * 64 + c) * 64 + d ∧
    e = [0xF0 + a, 0x80 + b, 0x80 + c, 0x80 + d])

/-- Well-formed UTF-8 and its text. -/
inductive WellFormed : List Nat → Str → Prop
  | nil : WellFormed [] []
  | cons {c : Char} {e p : List Nat} {s : Str} : Encoded c e → WellFormed p s → WellFormed (e ++ p) (c :: s)

/-- Any bytes and their text: a byte that begins no character stands for U+FFFD. -/
inductive Repaired : List Nat → Str → Prop
  | nil : Repaired [] []
  | cons {c : Char} {e p : List Nat} {s : Str} : Encoded c e → Repaired p s → Repaired (e ++ p) (c :: s)
  | bad {b : Nat} {p : List Nat} {s : Str} : (¬ ∃ c e r, Encoded c e ∧ b :: p = e ++ r) → Repaired p s →
    Repaired (b :: p) ('\uFFFD' :: s)

end Verif.Utf8
