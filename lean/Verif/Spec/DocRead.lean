import Verif.Spec.Doc
import Verif.Spec.JsonText

/-!
# Which documents fit a type

The shapes are those of the published formats: a member that is missing, null or unknown does not matter; one that is known
must have the kind of value its name calls for.
-/
namespace Verif.DocRead

open Verif.Doc Verif.JText

/-- Decimal digits that write `n`. -/
def Writes (l : Str) (n : Nat) : Prop := Digits l ∧ decimal l = n

/-- A text, or null. -/
def Text : J → Prop
  | .str _ => True
  | .null => True
  | _ => False

/-- A number written without sign, point and exponent, and below the limit; or null. -/
def Nat' (limit : Nat) : J → Prop
  | .num l => ∃ n, Writes l n ∧ n < limit
  | .null => True
  | _ => False

/-- A number written without point and exponent, in the range of 64 bits; or null. -/
def Int' : J → Prop
  | .num l => (∃ n, Writes l n ∧ n < 2 ^ 63) ∨ ∃ d n, l = '-' :: d ∧ Writes d n ∧ n ≤ 2 ^ 63
  | .null => True
  | _ => False

/-! ### Numbers -/

/-- The exponent part of a number and the power of ten it means. -/
def ExpVal (s : Str) (e : Int) : Prop :=
  (s = [] ∧ e = 0) ∨ ∃ (c : Char) (g d : Str), (c = 'e' ∨ c = 'E') ∧ s = c :: (g ++ d) ∧ Digits d ∧
    (((g = [] ∨ g = ['+']) ∧ e = decimal d) ∨ (g = ['-'] ∧ e = -(decimal d : Int)))

/-- The number a JSON number writes. -/
def NumVal (l : Str) (q : ℚ) : Prop :=
  ∃ (m i f x : Str) (e : Int), l = m ++ (i ++ ((if f = [] then [] else '.' :: f) ++ x)) ∧ (m = [] ∨ m = ['-']) ∧ Digits i ∧
    (∀ c ∈ f, '0' ≤ c ∧ c ≤ '9') ∧ ExpVal x e ∧
    q = (if m = ['-'] then -1 else 1) * ((decimal i : ℚ) + (decimal f : ℚ) / 10 ^ f.length) * (10 : ℚ) ^ e

/-- The text of a number in the range of float64. -/
def Finite (l : Str) : Prop := ∃ q, NumVal l q ∧ InRange q

/-- A number in the range of float64, or null. -/
def Num : J → Prop
  | .num l => Finite l
  | .null => True
  | _ => False

/-- The text of a date and time, or null. -/
def Date : J → Prop
  | .str s => ∃ t, TimeText s t
  | .null => True
  | _ => False

/-- The text `baselayer` or `overlay`; not null. -/
def Kind : J → Prop
  | .str s => s = "baselayer".toList ∨ s = "overlay".toList
  | _ => False

mutual
/-- Anything, as long as its numbers are in the range of float64. -/
def Any : J → Prop
  | .num l => Finite l
  | .arr l => AnyL l
  | .obj l => AnyM l
  | _ => True
/-- All elements are. -/
def AnyL : List J → Prop
  | [] => True
  | j :: js => Any j ∧ AnyL js
/-- All members are. -/
def AnyM : List (Str × J) → Prop
  | [] => True
  | (_, j) :: js => Any j ∧ AnyM js
end

/-- A list, all of whose elements are of a shape; or null. -/
def ListOf (p : J → Prop) : J → Prop
  | .arr l => ∀ j ∈ l, p j
  | .null => True
  | _ => False

/-- A list, whose first `n` elements are of a shape (there may be fewer, and any others after them); or null. -/
def FirstOf (n : Nat) (p : J → Prop) : J → Prop
  | .arr l => ∀ j ∈ l.take n, p j
  | .null => True
  | _ => False

/-- An object, all of whose members are of a shape; or null. -/
def MapOf (p : J → Prop) : J → Prop
  | .obj ms => ∀ m ∈ ms, p m.2
  | .null => True
  | _ => False

/-- An object whose members with these names (upper and lower case are the same) are of these shapes; or null. -/
def Record (fields : List (String × (J → Prop))) : J → Prop
  | .obj ms => ∀ m ∈ ms, ∀ f ∈ fields, fold m.1 = fold f.1.toList → f.2 m.2
  | .null => True
  | _ => False

/-- A layer of a TileJSON document. -/
def LayerShape : J → Prop := Record
  [("version", Int'), ("extent", Int'), ("id", Text), ("source", Text), ("source_name", Text), ("fields", MapOf Text),
    ("feature_tags", ListOf Text), ("geometry_type", Text), ("minzoom", Nat' (2 ^ 64)), ("maxzoom", Nat' (2 ^ 64)),
    ("tiles", ListOf Text)]

/-- A TileJSON document. -/
def TileJSONShape : J → Prop := Record
  [("id", Text), ("attribution", Text), ("bounds", FirstOf 4 Num), ("center", FirstOf 3 Num), ("format", Text),
    ("minzoom", Nat' (2 ^ 64)), ("maxzoom", Nat' (2 ^ 64)), ("name", Text), ("description", Text), ("scheme", Text),
    ("tilejson", Text), ("tiles", ListOf Text), ("grids", ListOf Text), ("data", ListOf Text), ("version", Text),
    ("template", Text), ("legend", Text), ("vector_layers", ListOf LayerShape), ("type", Text), ("tileSize", Nat' (2 ^ 32))]

/-- A page of tilesets. -/
def TilesetsShape : J → Prop := ListOf <| Record
  [("type", Text), ("center", FirstOf 3 Num), ("created", Date), ("description", Text), ("filesize", Int'), ("id", Text),
    ("modified", Date), ("name", Text), ("visibility", Text), ("status", Text)]

/-- A page of styles. -/
def StylesShape : J → Prop := ListOf <| Record
  [("version", Int'), ("name", Text), ("created", Date), ("id", Text), ("modified", Date), ("owner", Text)]

/-- A recipe. -/
def RecipeShape : J → Prop := Record
  [("version", Int'), ("layers", MapOf <| Record
    [("source", Text), ("minzoom", Nat' (2 ^ 64)), ("maxzoom", Nat' (2 ^ 64))])]

/-- A list of languages with their code points. -/
def LanguagesShape : J → Prop := ListOf <| Record
  [("id", Text), ("name", Text), ("codepoints", Record
    [("exemplarCharacters", ListOf (Nat' (2 ^ 32))), ("auxiliary", ListOf (Nat' (2 ^ 32))), ("index", ListOf (Nat' (2 ^ 32))),
      ("punctuation", ListOf (Nat' (2 ^ 32)))])]

/-- The `json` entry of an mbtiles file. -/
def LayerDataShape : J → Prop := Record
  [("vector_layers", ListOf <| Record
      [("id", Text), ("fields", MapOf Any), ("description", Text), ("minzoom", Int'), ("maxzoom", Int')]),
    ("tilestats", Record
      [("layerCount", Int'), ("layers", ListOf <| Record
        [("layer", Text), ("count", Int'), ("geometry", Text), ("attributeCount", Int'), ("attributes", ListOf <| Record
          [("attribute", Text), ("count", Int'), ("type", Text), ("values", ListOf Any)])])])]

/-- Metadata as a JSON document. -/
def MetadataShape : J → Prop := Record
  [("name", Text), ("format", Nat' (2 ^ 8)), ("bounds", FirstOf 4 Num), ("center", FirstOf 3 Num), ("minzoom", Int'),
    ("maxzoom", Int'), ("description", Text), ("version", Text), ("type", Kind), ("attribution", Text), ("json", LayerDataShape),
    ("directory_layout", Text), ("origin", Text), ("srs", Text), ("bounds_srs", Text), ("res_factor", Any),
    ("tile_size", FirstOf 2 Int')]

/-! ### What the fields hold -/

/-- The members with a name, in order. -/
def named (name : String) (ms : List (Str × J)) : List J := (ms.filter fun m => fold m.1 == fold name.toList).map Prod.snd

/-- One coordinate: a number is rounded to the nearest float64; null leaves what was there; 0 where the list has ended. -/
def Coord (old : ℚ) : Option J → ℚ → Prop
  | some (.num l), q => ∃ x, NumVal l x ∧ InRange x ∧ Nearest64 x q
  | some .null, q => q = old
  | none, q => q = 0
  | _, _ => False

/-- Coordinates read from a list into coordinates that are there. -/
def Coords (old : List ℚ) (js : List J) (l : List ℚ) : Prop :=
  l.length = old.length ∧ ∀ i (h : i < l.length) (h' : i < old.length), Coord old[i] js[i]? l[i]

/-- Coordinates read from all the members with a name, one after the other. -/
def CoordsFrom : List J → List ℚ → List ℚ → Prop
  | [], old, l => l = old
  | .arr js :: r, old, l => ∃ l', Coords old js l' ∧ CoordsFrom r l' l
  | _ :: r, old, l => CoordsFrom r old l

/-- The text, if the last of the members is one. -/
def lastOrNull (js : List J) : Option Str :=
  match js.getLast? with
  | some (.str s) => some s
  | _ => none

/-- Texts read from a list: null leaves the text that was there. -/
def overlay : List Str → List J → List Str
  | _, [] => []
  | [], .str s :: js => s :: overlay [] js
  | [], _ :: js => [] :: overlay [] js
  | _ :: os, .str s :: js => s :: overlay os js
  | o :: os, _ :: js => o :: overlay os js

/-- A list of texts read from all the members with a name: null clears it. -/
def textsFrom (js : List J) : Option (List Str) :=
  js.foldl (fun old j => match j with
    | .arr l => some (overlay (old.getD []) l)
    | _ => none) none

/-- The last value given for a key. -/
def lastFor (k : Str) (ms : List (Str × J)) : Option J := ((ms.filter fun m => m.1 == k).map Prod.snd).getLast?

end Verif.DocRead
