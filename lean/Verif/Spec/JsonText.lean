import Verif.Model.JsonText

/-!
# The grammar of JSON (RFC 8259), with what each text means

Written from the RFC, without the reader.
-/
namespace Verif.JText

open Verif.Doc

/-- White space: blanks, tabs, line feeds and carriage returns. -/
def Ws (w : Str) : Prop := ∀ c ∈ w, c = ' ' ∨ c = '\t' ∨ c = '\n' ∨ c = '\r'

/-- One or more decimal digits. -/
def Digits (s : Str) : Prop := s ≠ [] ∧ ∀ c ∈ s, '0' ≤ c ∧ c ≤ '9'

/-- `0`, or digits without a leading zero. -/
def IntPart (s : Str) : Prop := s = ['0'] ∨ (Digits s ∧ s.head? ≠ some '0')

/-- Nothing, or a point and digits. -/
def FracPart (s : Str) : Prop := s = [] ∨ ∃ d, Digits d ∧ s = '.' :: d

/-- Nothing, or `e` or `E`, perhaps a sign, and digits. -/
def ExpPart (s : Str) : Prop :=
  s = [] ∨ ∃ (e : Char) (g d : Str), (e = 'e' ∨ e = 'E') ∧ (g = [] ∨ g = ['+'] ∨ g = ['-']) ∧ Digits d ∧ s = e :: (g ++ d)

/-- A number. -/
def Number (s : Str) : Prop :=
  ∃ (m i f e : Str), (m = [] ∨ m = ['-']) ∧ IntPart i ∧ FracPart f ∧ ExpPart e ∧ s = m ++ (i ++ (f ++ e))

/-- Four hexadecimal digits and their value. -/
def Hex4 (s : Str) (n : Nat) : Prop :=
  ∃ a b c d : Char, ∃ p q r t : Nat, s = [a, b, c, d] ∧ Hex a p ∧ Hex b q ∧ Hex c r ∧ Hex d t ∧
    n = 16 * (16 * (16 * p + q) + r) + t
where
  /-- A hexadecimal digit, capital or small. -/
  Hex (c : Char) (n : Nat) : Prop := ('0' ≤ c ∧ c ≤ '9' ∧ n = c.toNat - '0'.toNat) ∨
    ('a' ≤ c ∧ c ≤ 'f' ∧ n = c.toNat - 'a'.toNat + 10) ∨ ('A' ≤ c ∧ c ≤ 'F' ∧ n = c.toNat - 'A'.toNat + 10)

/-- The escapes of two characters. -/
def Escape (e c : Char) : Prop :=
  (e, c) ∈ [('"', '"'), ('\\', '\\'), ('/', '/'), ('b', '\x08'), ('f', '\x0c'), ('n', '\n'), ('r', '\r'), ('t', '\t')]

/-- A code unit of UTF-16 that is half of a pair. -/
def Surrogate (n : Nat) : Prop := 0xD800 ≤ n ∧ n ≤ 0xDFFF

/-- Two code units that make a pair, and the character. -/
def SurrogatePair (n m : Nat) (c : Char) : Prop :=
  0xD800 ≤ n ∧ n ≤ 0xDBFF ∧ 0xDC00 ≤ m ∧ m ≤ 0xDFFF ∧ c.toNat = 0x10000 + (n - 0xD800) * 0x400 + (m - 0xDC00)

/-- The inside of a string and its text.  A half of a pair on its own stands for the replacement character. -/
inductive Chars : Str → Str → Prop
  | nil : Chars [] []
  | plain {c : Char} {s t : Str} : c ≠ '"' → c ≠ '\\' → 0x20 ≤ c.toNat → Chars s t → Chars (c :: s) (c :: t)
  | escape {e c : Char} {s t : Str} : Escape e c → Chars s t → Chars ('\\' :: e :: s) (c :: t)
  | hex {h s t : Str} {c : Char} : Hex4 h c.toNat → Chars s t → Chars ('\\' :: 'u' :: (h ++ s)) (c :: t)
  | pair {h h' s t : Str} {n m : Nat} {c : Char} : Hex4 h n → Hex4 h' m → SurrogatePair n m c → Chars s t →
    Chars ('\\' :: 'u' :: (h ++ '\\' :: 'u' :: (h' ++ s))) (c :: t)
  | lone {h s t : Str} {n : Nat} : Hex4 h n → Surrogate n →
    (∀ (h' s' : Str) (m : Nat) (c : Char), s = '\\' :: 'u' :: (h' ++ s') → Hex4 h' m → ¬ SurrogatePair n m c) → Chars s t →
    Chars ('\\' :: 'u' :: (h ++ s)) ('\uFFFD' :: t)

mutual
/-- A value and its text. -/
inductive Text : J → Str → Prop
  | null : Text .null "null".toList
  | true : Text (.bool true) "true".toList
  | false : Text (.bool false) "false".toList
  | num {s : Str} : Number s → Text (.num s) s
  | str {s t : Str} : Chars s t → Text (.str t) ('"' :: (s ++ ['"']))
  | emptyArr {w : Str} : Ws w → Text (.arr []) ('[' :: (w ++ [']']))
  | arr {l : List J} {s : Str} : Elems l s → Text (.arr l) ('[' :: (s ++ [']']))
  | emptyObj {w : Str} : Ws w → Text (.obj []) ('{' :: (w ++ ['}']))
  | obj {l : List (Str × J)} {s : Str} : Members l s → Text (.obj l) ('{' :: (s ++ ['}']))
/-- One or more values with commas between them. -/
inductive Elems : List J → Str → Prop
  | one {j : J} {w s w' : Str} : Ws w → Text j s → Ws w' → Elems [j] (w ++ (s ++ w'))
  | cons {j : J} {l : List J} {w s w' r : Str} : Ws w → Text j s → Ws w' → Elems l r →
    Elems (j :: l) (w ++ (s ++ (w' ++ ',' :: r)))
/-- One or more names and values with commas between them. -/
inductive Members : List (Str × J) → Str → Prop
  | one {k n : Str} {j : J} {w w1 w2 w3 s : Str} : Ws w → Chars n k → Ws w1 → Ws w2 → Text j s → Ws w3 →
    Members [(k, j)] (w ++ '"' :: (n ++ '"' :: (w1 ++ ':' :: (w2 ++ (s ++ w3)))))
  | cons {k n : Str} {j : J} {l : List (Str × J)} {w w1 w2 w3 s r : Str} : Ws w → Chars n k → Ws w1 → Ws w2 → Text j s →
    Ws w3 → Members l r → Members ((k, j) :: l) (w ++ '"' :: (n ++ '"' :: (w1 ++ ':' :: (w2 ++ (s ++ (w3 ++ ',' :: r))))))
end

/-- A JSON text: a value with white space around it. -/
def JsonText (s : Str) (j : J) : Prop := ∃ w t w' : Str, Ws w ∧ Text j t ∧ Ws w' ∧ s = w ++ (t ++ w')

mutual
/-- How deeply arrays and objects are nested. -/
def depth : J → Nat
  | .arr l => depthL l + 1
  | .obj l => depthM l + 1
  | _ => 0
/-- the deepest element -/
def depthL : List J → Nat
  | [] => 0
  | j :: js => max (depth j) (depthL js)
/-- the deepest member -/
def depthM : List (Str × J) → Nat
  | [] => 0
  | (_, j) :: js => max (depth j) (depthM js)
end

mutual
/-- Every number in the document is spelled as JSON wants it. -/
def Spelled : J → Prop
  | .num s => Number s
  | .arr l => SpelledL l
  | .obj l => SpelledM l
  | _ => True
/-- in every element -/
def SpelledL : List J → Prop
  | [] => True
  | j :: js => Spelled j ∧ SpelledL js
/-- in every member -/
def SpelledM : List (Str × J) → Prop
  | [] => True
  | (_, j) :: js => Spelled j ∧ SpelledM js
end

/-- The rest of a text after a number cannot be taken for more of the number. -/
def Ends (r : Str) : Prop := ∀ c s, r = c :: s → ¬ ('0' ≤ c ∧ c ≤ '9') ∧ c ≠ '.' ∧ c ≠ 'e' ∧ c ≠ 'E'

end Verif.JText
