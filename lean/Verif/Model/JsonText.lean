import Verif.Model.Doc
import Verif.Model.Mbtiles

/-!
# Model of JSON texts

How encoding/json writes a document as text and finds a document in a text: the scanner, `unquote`, the limit on nesting,
`Unmarshal` (the whole text) and `Decoder.Decode` (the first value), as used by client/client.go:55, font/cover.go:112-114,
mbtiles/metadata.go:66, mbtiles/mbtiles.go:322, 352, 361, 409 and style/style.go:64.

Simplification: texts are lists of characters, so bytes that are not UTF-8 (which the library replaces) are not modelled.
-/
namespace Verif.JText

open Verif.Doc

/-! ### Writing -/

/-- A lower case hexadecimal digit. Go library encoding/json (`hex`), for mbtiles/metadata.go:66. -/
def hexDigit (n : Nat) : Char := if n < 10 then Char.ofNat (48 + n) else Char.ofNat (87 + n)

/-- `\uXXXX`. Go library encoding/json (appendString), for mbtiles/metadata.go:66. -/
def hexEsc (n : Nat) : Str :=
  ['\\', 'u', hexDigit (n / 4096 % 16), hexDigit (n / 256 % 16), hexDigit (n / 16 % 16), hexDigit (n % 16)]

/-- One character of a string, with `EscapeHTML` as `Marshal` and `Encode` have it.  Simplification: from Go 1.22 on the
characters 8 and 12 are written `\b` and `\f`, here always `\u0008` and `\u000c`. Go library encoding/json (appendString), for
mbtiles/metadata.go:66. -/
def escChar (c : Char) : Str :=
  if c = '"' then ['\\', '"']
  else if c = '\\' then ['\\', '\\']
  else if c = '\n' then ['\\', 'n']
  else if c = '\r' then ['\\', 'r']
  else if c = '\t' then ['\\', 't']
  else if c.toNat < 32 ∨ c = '<' ∨ c = '>' ∨ c = '&' ∨ c.toNat = 0x2028 ∨ c.toNat = 0x2029 then hexEsc c.toNat
  else [c]

/-- The inside of a string. Go library encoding/json (appendString), for mbtiles/metadata.go:66. -/
def escStr : Str → Str
  | [] => []
  | c :: s => escChar c ++ escStr s

mutual
/-- `Marshal`: no white space. Go library encoding/json, for mbtiles/metadata.go:66. -/
def print : J → Str
  | .null => ['n', 'u', 'l', 'l']
  | .bool true => ['t', 'r', 'u', 'e']
  | .bool false => ['f', 'a', 'l', 's', 'e']
  | .num l => l
  | .str s => '"' :: (escStr s ++ ['"'])
  | .arr l => '[' :: (printL l ++ [']'])
  | .obj l => '{' :: (printM l ++ ['}'])
/-- Elements with commas between them. Go library encoding/json (arrayEncoder), for mbtiles/metadata.go:66. -/
def printL : List J → Str
  | [] => []
  | [j] => print j
  | j :: j' :: js => print j ++ ',' :: printL (j' :: js)
/-- Members with commas between them. Go library encoding/json (structEncoder, mapEncoder), for mbtiles/metadata.go:66. -/
def printM : List (Str × J) → Str
  | [] => []
  | [(k, j)] => '"' :: (escStr k ++ '"' :: ':' :: print j)
  | (k, j) :: m :: ms => '"' :: (escStr k ++ '"' :: ':' :: (print j ++ ',' :: printM (m :: ms)))
end

/-- `Encoder.Encode`: the text and a newline. Go library encoding/json, for mbtiles/mbtiles.go:361-362. -/
def encode (j : J) : Str := print j ++ ['\n']

/-! ### Reading -/

/-- `isSpace`. Go library encoding/json (scanner), for client/client.go:55. -/
def isWs (c : Char) : Bool := c == ' ' || c == '\t' || c == '\r' || c == '\n'

/-- Skip white space. Go library encoding/json (scanner), for client/client.go:55. -/
def skipWs : Str → Str
  | [] => []
  | c :: s => if isWs c then skipWs s else c :: s

/-- The digits at the front and the rest. Go library encoding/json (state1, stateDot0, stateE0), for client/client.go:55. -/
def digits : Str → Str × Str
  | [] => ([], [])
  | c :: s => if c.isDigit then (c :: (digits s).1, (digits s).2) else ([], c :: s)

/-- The integer part: one 0, or digits that do not begin with 0. Go library encoding/json (stateNeg, state0, state1), for
client/client.go:55. -/
def scanInt : Str → Option (Str × Str)
  | [] => none
  | c :: s =>
    if c = '0' then some (['0'], s)
    else if c.isDigit then some (c :: (digits s).1, (digits s).2)
    else none

/-- The fraction. Go library encoding/json (stateDot, stateDot0), for client/client.go:55. -/
def scanFrac : Str → Option (Str × Str)
  | [] => some ([], [])
  | c :: s =>
    if c = '.' then
      match (digits s).1 with
      | [] => none
      | d => some ('.' :: d, (digits s).2)
    else some ([], c :: s)

/-- The sign of the exponent. Go library encoding/json (stateE), for client/client.go:55. -/
def scanSign : Str → Str × Str
  | [] => ([], [])
  | c :: s => if c = '+' ∨ c = '-' then ([c], s) else ([], c :: s)

/-- The exponent. Go library encoding/json (stateE, stateESign, stateE0), for client/client.go:55. -/
def scanExp : Str → Option (Str × Str)
  | [] => some ([], [])
  | c :: s =>
    if c = 'e' ∨ c = 'E' then
      match (digits (scanSign s).2).1 with
      | [] => none
      | d => some (c :: ((scanSign s).1 ++ d), (digits (scanSign s).2).2)
    else some ([], c :: s)

/-- The minus sign. Go library encoding/json (stateBeginValue), for client/client.go:55. -/
def scanMinus : Str → Str × Str
  | [] => ([], [])
  | c :: s => if c = '-' then (['-'], s) else ([], c :: s)

/-- A number literal and the rest. Go library encoding/json (scanner), for client/client.go:55. -/
def scanNum (s : Str) : Option (Str × Str) :=
  match scanInt (scanMinus s).2 with
  | none => none
  | some a =>
    match scanFrac a.2 with
    | none => none
    | some b =>
      match scanExp b.2 with
      | none => none
      | some c => some ((scanMinus s).1 ++ (a.1 ++ (b.1 ++ c.1)), c.2)

/-- A hexadecimal digit. Go library encoding/json (getu4), for client/client.go:55. -/
def hexVal (c : Char) : Option Nat :=
  if '0' ≤ c ∧ c ≤ '9' then some (c.toNat - 48)
  else if 'a' ≤ c ∧ c ≤ 'f' then some (c.toNat - 87)
  else if 'A' ≤ c ∧ c ≤ 'F' then some (c.toNat - 55)
  else none

/-- `getu4`. Go library encoding/json, for client/client.go:55. -/
def hex4 (a b c d : Char) : Option Nat :=
  match hexVal a, hexVal b, hexVal c, hexVal d with
  | some p, some q, some r, some t => some (p * 4096 + q * 256 + r * 16 + t)
  | _, _, _, _ => none

/-- The character of an escape of one letter. Go library encoding/json (unquote), for client/client.go:55. -/
def escVal (c : Char) : Option Char :=
  if c = '"' then some '"'
  else if c = '\\' then some '\\'
  else if c = '/' then some '/'
  else if c = 'b' then some (Char.ofNat 8)
  else if c = 'f' then some (Char.ofNat 12)
  else if c = 'n' then some '\n'
  else if c = 'r' then some '\r'
  else if c = 't' then some '\t'
  else none

/-- A piece of a string: a character, or a `\u` escape with its number. -/
inductive Item
  | ch (c : Char)
  | unit (n : Nat)

/-- The pieces up to the closing quote, and the rest. Go library encoding/json (stateInString...), for client/client.go:55. -/
def scanStr : Str → Option (List Item × Str)
  | [] => none
  | c :: s =>
    if c = '"' then some ([], s)
    else if c = '\\' then
      match s with
      | [] => none
      | e :: s' =>
        if e = 'u' then
          match s' with
          | p :: q :: r :: t :: s'' =>
            match hex4 p q r t, scanStr s'' with
            | some n, some (is, rest) => some (.unit n :: is, rest)
            | _, _ => none
          | _ => none
        else
          match escVal e, scanStr s' with
          | some x, some (is, rest) => some (.ch x :: is, rest)
          | _, _ => none
    else if c.toNat < 32 then none
    else
      match scanStr s with
      | some (is, rest) => some (.ch c :: is, rest)
      | none => none

/-- The first half of a surrogate pair. Go library unicode/utf16, for client/client.go:55. -/
def isHigh (n : Nat) : Bool := 0xD800 ≤ n && n < 0xDC00

/-- The second half of a surrogate pair. Go library unicode/utf16, for client/client.go:55. -/
def isLow (n : Nat) : Bool := 0xDC00 ≤ n && n < 0xE000

/-- The text: surrogate pairs are joined, other surrogates replaced. Go library encoding/json (unquote), for
client/client.go:55. -/
def unquote : List Item → Str
  | [] => []
  | .ch c :: is => c :: unquote is
  | [.unit n] => if isHigh n || isLow n then ['\uFFFD'] else [Char.ofNat n]
  | .unit n :: .ch c :: is => (if isHigh n || isLow n then '\uFFFD' else Char.ofNat n) :: c :: unquote is
  | .unit n :: .unit m :: is =>
    if isHigh n && isLow m then Char.ofNat ((n - 0xD800) * 1024 + (m - 0xDC00) + 0x10000) :: unquote is
    else (if isHigh n || isLow n then '\uFFFD' else Char.ofNat n) :: unquote (.unit m :: is)

/-- The rest of a text that begins with a given word. Go library encoding/json (stateN, stateT, stateF), for
client/client.go:55. -/
def takeWord : Str → Str → Option Str
  | [], s => some s
  | _ :: _, [] => none
  | c :: w, x :: s => if x = c then takeWord w s else none

/-- `true`, `false`, `null` or a number. Go library encoding/json (stateBeginValue), for client/client.go:55. -/
def scanAtom (s : Str) : Option (J × Str) :=
  match takeWord ['n', 'u', 'l', 'l'] s with
  | some r => some (.null, r)
  | none =>
    match takeWord ['t', 'r', 'u', 'e'] s with
    | some r => some (.bool true, r)
    | none =>
      match takeWord ['f', 'a', 'l', 's', 'e'] s with
      | some r => some (.bool false, r)
      | none => (scanNum s).map fun a => (.num a.1, a.2)

mutual
/-- A value after white space, and the rest of the text; `d` is how many arrays and objects may still be opened. The first
argument bounds the number of calls. Go library encoding/json (scanner), for client/client.go:55. -/
def value : Nat → Nat → Str → Option (J × Str)
  | 0, _, _ => none
  | n + 1, d, s =>
    match skipWs s with
    | [] => none
    | c :: r =>
      if c = '"' then (scanStr r).map fun a => (.str (unquote a.1), a.2)
      else if c = '[' then
        match d with
        | 0 => none
        | d + 1 =>
          match skipWs r with
          | ']' :: r' => some (.arr [], r')
          | _ => (elems n d r).map fun a => (.arr a.1, a.2)
      else if c = '{' then
        match d with
        | 0 => none
        | d + 1 =>
          match skipWs r with
          | '}' :: r' => some (.obj [], r')
          | _ => (members n d r).map fun a => (.obj a.1, a.2)
      else scanAtom (c :: r)
/-- The elements of an array up to the closing bracket. Go library encoding/json (stateEndValue), for client/client.go:55. -/
def elems : Nat → Nat → Str → Option (List J × Str)
  | 0, _, _ => none
  | n + 1, d, s =>
    match value n d s with
    | none => none
    | some a =>
      match skipWs a.2 with
      | ',' :: r => (elems n d r).map fun b => (a.1 :: b.1, b.2)
      | ']' :: r => some ([a.1], r)
      | _ => none
/-- The members of an object up to the closing brace. Go library encoding/json (stateBeginString, stateEndValue), for
client/client.go:55. -/
def members : Nat → Nat → Str → Option (List (Str × J) × Str)
  | 0, _, _ => none
  | n + 1, d, s =>
    match skipWs s with
    | '"' :: s1 =>
      match scanStr s1 with
      | none => none
      | some k =>
        match skipWs k.2 with
        | ':' :: s2 =>
          match value n d s2 with
          | none => none
          | some a =>
            match skipWs a.2 with
            | ',' :: r => (members n d r).map fun b => ((unquote k.1, a.1) :: b.1, b.2)
            | '}' :: r => some ([(unquote k.1, a.1)], r)
            | _ => none
        | _ => none
    | _ => none
end

/-- `maxNestingDepth`. Go library encoding/json, for client/client.go:55. -/
def maxDepth : Nat := 10000

/-- Enough calls for a text. -/
def calls (s : Str) : Nat := 2 * s.length + 2

/-- `Decoder.Decode`, as far as the text goes: the first value; what follows is not looked at. Go library encoding/json, for
client/client.go:55, font/cover.go:112-114, mbtiles/mbtiles.go:352-353 and style/style.go:64-65. -/
def decode (s : Str) : Option J := (value (calls s) maxDepth s).map (·.1)

/-- `Unmarshal`, as far as the text goes: one value and white space. Go library encoding/json, for mbtiles/mbtiles.go:322,
409. -/
def unmarshal (s : Str) : Option J :=
  match value (calls s) maxDepth s with
  | none => none
  | some a => if skipWs a.2 = [] then some a.1 else none

/-! ### Documents as texts -/

/-- `json.Marshal`. Go library encoding/json. -/
def marshal {α : Type} (c : Doc.Codec α) (v : α) : Option Str := (c.write v).map print

/-- `Client.do` on the text of an answer, whatever its status (client/client.go:55-58). -/
def readBody {α : Type} (c : Doc.Codec α) (body : Str) : Option α :=
  match decode body with
  | none => none
  | some j => c.read j

/-- `json.Unmarshal` into a new variable. Go library encoding/json. -/
def readAll {α : Type} (c : Doc.Codec α) (text : Str) : Option α :=
  match unmarshal text with
  | none => none
  | some j => c.read j

/-- `NewFontCoverage` (font/cover.go:110-121) on its text. -/
def fontCoverage (text : Str) : Option (Option (List (Option Language))) :=
  match decode text with
  | none => none
  | some j => newFontCoverage j

/-- `GetTileJSON` (client/client.go:174-188) on the text of the answer. -/
def tileJSONBody (short : ℚ → Str) (body : Str) : TileJSON × Bool :=
  match readBody (tileJSONC short) body with
  | some t => (t, true)
  | none => ((tileJSONC short).zero, false)

/-- The layer data in the metadata table: `json.Marshal` with its error dropped (mbtiles/metadata.go:66) and `json.Unmarshal`
into a nil pointer or over the data of an earlier row (mbtiles/mbtiles.go:409). -/
def layerDataText (short : ℚ → Str) : Mbtiles.Codec LayerData where
  enc d := (marshal (layerDataC short) d).getD []
  dec := readAll (ptrC (layerDataC short))
  more d text :=
    match unmarshal text with
    | none => some d
    | some j => ((ptrC (layerDataC short)).dec (some d) j).1

end Verif.JText
