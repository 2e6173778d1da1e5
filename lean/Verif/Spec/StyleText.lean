import Verif.Spec.StyleParse
import Verif.Spec.DocRead
import Verif.Model.StyleText

/-!
# Specification for C97: style texts

JSON texts are those of C95 (`JText.Text`), the value of a number is that of C96 (`DocRead.NumVal`), and what a style document must look
like is that of C69 (`FitStyle`, `MeansStyle`).
-/
namespace Verif.Style

open Verif.Doc (J)

/-- A number without point and exponent, in the range of 64 bits, and the int it spells. -/
def Spells (l : Doc.Str) (z : Int) : Prop :=
  (∃ n : Nat, DocRead.Writes l n ∧ n < 2 ^ 63 ∧ z = n) ∨ ∃ (d : Doc.Str) (n : Nat), l = '-' :: d ∧ DocRead.Writes d n ∧ n ≤ 2 ^ 63 ∧ z = -(n : Int)

mutual
/-- The value a piece of JSON text stands for: a number in range is rounded to the nearest float64, and is an int if it spells one. -/
def StandsFor : J → Json → Prop
  | .null, .null => True
  | .bool b, .bool b' => b = b'
  | .num l, .num q => (∃ v, DocRead.NumVal l v ∧ Doc.InRange v ∧ q.val = F64.rnd64 v) ∧ ∀ n, q.int = some n ↔ Spells l n
  | .num l, .huge => ∃ v, DocRead.NumVal l v ∧ ¬ Doc.InRange v
  | .str s, .str s' => s'.toList = s
  | .arr l, .arr l' => StandForL l l'
  | .obj l, .obj l' => StandForM l l'
  | _, _ => False
/-- element by element -/
def StandForL : List J → List Json → Prop
  | [], [] => True
  | j :: js, x :: xs => StandsFor j x ∧ StandForL js xs
  | _, _ => False
/-- member by member -/
def StandForM : List (Doc.Str × J) → List (String × Json) → Prop
  | [], [] => True
  | (k, j) :: js, (k', x) :: xs => k'.toList = k ∧ StandsFor j x ∧ StandForM js xs
  | _, _ => False
end

/-- A text that begins, after white space, with JSON for the value `x`, nested at most 10000 deep. -/
def StyleText (s : Doc.Str) (x : Json) : Prop :=
  ∃ j w t r, JText.Ws w ∧ JText.Text j t ∧ s = w ++ (t ++ r) ∧ JText.depth j ≤ 10000 ∧ StandsFor j x

/-- The background of a style: white without layers or when the first layer is not called "background"; else the background colour of
its paint at zoom 0. -/
def BackgroundIs (A : Arith ℚ) (s : StyleVal) (c : ColOut ℚ) : Prop :=
  (s.layers = [] ∧ c = .color (.rgba 255 255 255 255)) ∨
  ∃ l rest, s.layers = some l :: rest ∧
    ((l.id ≠ "background" ∧ c = .color (.rgba 255 255 255 255)) ∨
     (l.id = "background" ∧ ∃ p, l.paint = some p ∧ (p.colour "background-color").at A 0 = .ok c))

end Verif.Style
