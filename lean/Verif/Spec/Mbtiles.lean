import Verif.Spec.Numeral
import Mathlib.Data.Rat.Defs
import Mathlib.Algebra.Order.Field.Rat

/-!
# Specification: numerals in metadata, and float64 numbers in tile headers
-/
namespace Verif.Mbtiles

/-! ## Numerals -/

/-- Decimal digits. -/
def Digits10 (s : List Char) : Prop := ∀ c ∈ s, '0' ≤ c ∧ c ≤ '9'

/-- The number that decimal digits spell. -/
def value10 (s : List Char) : Nat := s.foldl (fun n c => 10 * n + (c.toNat - '0'.toNat)) 0

/-- A sign and its factor. -/
inductive Sign : List Char → Int → Prop
  | none : Sign [] 1
  | plus : Sign ['+'] 1
  | minus : Sign ['-'] (-1)

/-- A decimal integer: sign and at least one digit (leading zeros allowed). -/
def IntNumeral (s : List Char) (n : Int) : Prop :=
  ∃ sg σ ds, s = sg ++ ds ∧ Sign sg σ ∧ ds ≠ [] ∧ Digits10 ds ∧ n = σ * value10 ds

/-- An exponent: nothing, or `e` or `E` and an integer. -/
def Exponent (s : List Char) (e : Int) : Prop :=
  s = [] ∧ e = 0 ∨ ∃ c r, (c = 'e' ∨ c = 'E') ∧ s = c :: r ∧ IntNumeral r e

/-- A decimal number: sign, digits, perhaps a point and digits, exponent; at least one digit before the exponent. -/
def Decimal (s : List Char) (q : ℚ) : Prop :=
  ∃ sg σ whole frac mid ex e, s = sg ++ (whole ++ (mid ++ ex)) ∧ Sign sg σ ∧ Digits10 whole ∧ Digits10 frac ∧
    (whole ≠ [] ∨ frac ≠ []) ∧ (mid = [] ∧ frac = [] ∨ mid = '.' :: frac) ∧ Exponent ex e ∧
    q = σ * (value10 whole + value10 frac / 10 ^ frac.length) * 10 ^ e

/-- `t` is `s` between spaces, tabs and line ends. -/
def Spaced (t s : List Char) : Prop :=
  ∃ a b, t = a ++ s ++ b ∧ ∀ c ∈ a ++ b, c ∈ [' ', '\t', '\n', '\r', '\x0b', '\x0c']

/-- The texts separated by commas. -/
def commaSep : List (List Char) → List Char
  | [] => []
  | [a] => a
  | a :: b :: r => a ++ [','] ++ commaSep (b :: r)

/-! ## Rows -/

/-- The value a table of names and values gives a name: that of the last row with this name and a non-empty value. -/
def given (rows : List (String × List Char)) (k : String) : Option (List Char) :=
  ((rows.filter fun r => r.1 = k ∧ r.2 ≠ []).getLast?).map Prod.snd

/-- The non-empty texts of the rows called "json", in their order. -/
def jsonTexts (rows : List (String × List Char)) : List (List Char) :=
  (rows.filter fun r => r.1 = "json" ∧ r.2 ≠ []).map Prod.snd

/-- The layer data of the texts of "json" rows: the first is decoded on its own, and so is one after a null; any other is decoded over
the data there is. -/
inductive Merged {LD : Type} (dec : List Char → Option (Option LD)) (more : LD → List Char → Option LD) : List (List Char) → Option LD → Prop
  | nil : Merged dec more [] none
  | first {ts : List (List Char)} {t : List Char} {d : Option LD} : Merged dec more ts none → dec t = some d → Merged dec more (ts ++ [t]) d
  | again {ts : List (List Char)} {t : List Char} {old : LD} : Merged dec more ts (some old) → dec t ≠ none →
      Merged dec more (ts ++ [t]) (more old t)

/-! ## float64 -/

/-- What a float64 stands for; both zeros are the number 0. -/
inductive FVal
  | nan
  | inf (neg : Bool)
  | num (q : ℚ)
deriving DecidableEq

/-- The value of 64 bits by IEEE 754: a sign bit, eleven exponent bits, 52 fraction bits. -/
def ieee (b : Nat) : FVal :=
  let neg := b / 2 ^ 63 = 1
  let e : Nat := b / 2 ^ 52 % 2 ^ 11
  let f : Nat := b % 2 ^ 52
  if e = 2047 then (if f = 0 then .inf (decide neg) else .nan)
  else .num ((if neg then -1 else 1) * (if e = 0 then (f : ℚ) * 2 else (2 ^ 52 + f : ℚ) * 2 ^ e) / 2 ^ 1075)

/-- The float64 stored at a byte offset, least significant byte first. -/
def doubleAt (data : List Nat) (off : Nat) : FVal :=
  ieee (((List.range 8).map fun i => data.getD (off + i) 0 * 256 ^ i).sum)

end Verif.Mbtiles
