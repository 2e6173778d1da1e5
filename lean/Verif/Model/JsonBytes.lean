import Verif.Model.Utf8
import Verif.Model.JsonText
import Verif.Model.MbtilesFile
import Verif.Model.StyleText

/-!
# JSON as bytes: request and response bodies, and UTF grids
-/
namespace Verif.JBytes

open Verif.Doc

/-- `json.Marshal`. Go library encoding/json. -/
def marshal {α : Type} (c : Doc.Codec α) (v : α) : Option (List Nat) := (JText.marshal c v).map Utf8.bytes

/-- `json.Unmarshal` into a new variable. Go library encoding/json, for mbtiles/mbtiles.go:409. -/
def readAll {α : Type} (c : Doc.Codec α) (p : List Nat) : Option α := JText.readAll c (Utf8.text p)

/-- `Client.do` on the bytes of an answer, whatever its status (client/client.go:55-58). -/
def readBody {α : Type} (c : Doc.Codec α) (p : List Nat) : Option α := JText.readBody c (Utf8.text p)

/-- `GetTileJSON` (client/client.go:174-188) on the bytes of the answer. -/
def tileJSONBody (short : ℚ → Str) (p : List Nat) : TileJSON × Bool := JText.tileJSONBody short (Utf8.text p)

/-- `NewFontCoverage` (font/cover.go:110-121) on the bytes of its reader. -/
def fontCoverage (p : List Nat) : Option (Option (List (Option Language))) := JText.fontCoverage (Utf8.text p)

/-- `Parse` (style/style.go:62-76) on the bytes of its reader. -/
def parseStyle (rnd : ℚ → ℚ) (imp : Nat) (A : Style.Arith ℚ) (p : List Nat) : Except Style.Fail (Style.StyleVal × Style.ColOut ℚ) :=
  Style.parseText rnd imp A (Utf8.text p)

/-- Decoding into a `map[string]interface{}`; `none`: an error and no map, `some none`: the nil map; a number beyond the
range of float64 leaves nil under its name (the error is dropped). Go library encoding/json, for mbtiles/mbtiles.go:323, 352-353. -/
def toMap : Option J → Option (Option (List (String × Dyn)))
  | some .null => some none
  | some (.obj ms) => some (some ((Dyn.decM [] ms).1.map fun e => (String.ofList e.1, e.2)))
  | _ => none

/-- A `map[string]interface{}` from its entries. mbtiles/mbtiles.go:324, 355. -/
def fromMap (m : List (String × Dyn)) : Dyn := .map (m.foldl (fun acc e => mapSet e.1.toList e.2 acc) [])

/-- encoding/json for the maps of `ReadGrid` (mbtiles/mbtiles.go:291-370): the encoder writes the members in the order of their names and
a line feed at the end. -/
def gridCodec (short : ℚ → Str) : Mbtiles.JCodec Dyn where
  obj := fromMap
  nul := .nil
  whole p := toMap (JText.unmarshal (Utf8.text p))
  first p := toMap (JText.decode (Utf8.text p))
  encode m := Utf8.bytes (JText.encode ((fromMap m).enc short))

end Verif.JBytes
