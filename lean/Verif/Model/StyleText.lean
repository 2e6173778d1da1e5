import Verif.Model.StyleParse
import Verif.Model.JsonText

/-!
# Model of `Parse` on a text (style/style.go:62-76)

The first JSON value of the text is decoded into a style and its background colour is computed.
-/
namespace Verif.Style

/-- The numbers encoding/json takes from the text of a number: `strconv.ParseFloat` and `strconv.ParseInt`. Go library encoding/json
(decodeState.literalStore, convertNumber), for style/style.go:65. -/
def toNumb (l : Doc.Str) : Json :=
  match Go.parse64 l with
  | none => .huge
  | some q => .num ⟨q, match Go.parseInt l 10 with
    | .ok n => some n
    | .error _ => none⟩

mutual
/-- The value encoding/json takes from a piece of JSON text. Go library encoding/json, for style/style.go:65. -/
def toJson : Doc.J → Json
  | .null => .null
  | .bool b => .bool b
  | .num l => toNumb l
  | .str s => .str (String.ofList s)
  | .arr l => .arr (toJsonL l)
  | .obj l => .obj (toJsonM l)
/-- The elements of an array. Go library encoding/json, for style/style.go:65. -/
def toJsonL : List Doc.J → List Json
  | [] => []
  | j :: js => toJson j :: toJsonL js
/-- The members of an object. Go library encoding/json, for style/style.go:65. -/
def toJsonM : List (Doc.Str × Doc.J) → List (String × Json)
  | [] => []
  | (k, j) :: js => (String.ofList k, toJson j) :: toJsonM js
end

/-- `Parse` (style/style.go:62-76). -/
def parseText (rnd : ℚ → ℚ) (imp : Nat) (A : Arith ℚ) (s : Doc.Str) : Except Fail (StyleVal × ColOut ℚ) :=
  match JText.decode s with
  | none => .error .err
  | some j => parseStyle rnd imp A (toJson j)

end Verif.Style
