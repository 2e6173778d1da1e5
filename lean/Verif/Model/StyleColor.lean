import Verif.Model.StyleZoom
import Verif.Model.Regex
import Verif.Model.GoFloat

/-!
# Model of style/colors.go: colour strings

A Go string is a list of characters (valid UTF-8, which is what encoding/json hands over); where the code
indexes bytes, `utf8` gives them.  `rnd` is the rounding of float64 operations (`Verif.F64.rnd`).
-/
namespace Verif.Style
open Verif.Go Verif.Regex

/-- UTF-8 encoding of a character (Go language: strings are UTF-8 bytes).
Go language, for style/colors.go:79-136. -/
def utf8 (c : Char) : List Nat :=
  let n := c.toNat
  if n < 128 then [n]
  else if n < 2048 then [192 + n / 64, 128 + n % 64]
  else if n < 65536 then [224 + n / 4096, 128 + n / 64 % 64, 128 + n % 64]
  else [240 + n / 262144, 128 + n / 4096 % 64, 128 + n / 64 % 64, 128 + n % 64]

/-- The bytes of a string, each as the character with that code (what strconv looks at).
Go language, for style/colors.go:79-136. -/
def bytesOf (s : List Char) : List Char := s.flatMap (fun c => (utf8 c).map Char.ofNat)

/-- A parsed colour.  The alpha byte is `none` when Go leaves the float-to-byte conversion to the
implementation (see `toU8`). style/colors.go:79-105. -/
inductive Parsed
  | nil
  | rgba (r g b : Nat) (a : Option Nat)
  | hsl (h s l : ℚ) (a : Option Nat)
deriving DecidableEq, Repr

/-- `strconv.ParseUint(match, 16, 64)` and `uint8(c)` for the three fragments (style/colors.go:121-128); the
first failing fragment's error is returned. -/
def hexFragments (h : List Char) : Except Fail (Nat × Nat × Nat) :=
  match parseUint ((h.drop 0).take 2) 16 with
  | .error _ => .error .err
  | .ok r =>
    match parseUint ((h.drop 2).take 2) 16 with
    | .error _ => .error .err
    | .ok g =>
      match parseUint ((h.drop 4).take 2) 16 with
      | .error _ => .error .err
      | .ok b => .ok (r % 256, g % 256, b % 256)

/-- The `switch len(str)` of `getHexColor` (style/colors.go:109-118): the six bytes, or none. -/
def hex6Char (str : List Char) : Option (List Char) :=
  let bs := bytesOf str
  if bs.length = 7 then some ((bs.drop 1).take 6)
  else if bs.length = 4 then some (bytesOf ((str.drop 1).flatMap fun ch => [ch, ch]))
  else none

/-- `getHexColor` (style/colors.go:107-136). -/
def getHexColor (str : List Char) (defaultAlpha : Nat) : Except Fail Parsed :=
  match hex6Char str with
  | none => .error .err
  | some h =>
    match hexFragments h with
    | .error e => .error e
    | .ok (r, g, b) => .ok (.rgba r g b (some defaultAlpha))

/-- `(\d+)`. Part of the regular expressions at style/colors.go:73-76. -/
def reNum (i : Nat) : Re := .group i (.plus isDig)
/-- `\s*`. Part of the regular expressions at style/colors.go:73-76. -/
def reWs : Re := .star isSpace
/-- `\s*,\s*`. Part of the regular expressions at style/colors.go:73-76. -/
def reComma : Re := .seq reWs (.seq (.cls (· == ',')) reWs)
/-- `%\s*,\s*`. Part of the regular expressions at style/colors.go:73-76. -/
def rePctComma : Re := .seq (.cls (· == '%')) reComma
/-- `\s*\)`. Part of the regular expressions at style/colors.go:73-76. -/
def reClose : Re := .seq reWs (.cls (· == ')'))
/-- `(\d*\.?\d*)`. Part of the regular expressions at style/colors.go:73-76. -/
def reAlpha (i : Nat) : Re := .group i (.seq (.star isDig) (.seq (.opt (.cls (· == '.'))) (.star isDig)))

/-- `strColorHSLRegexp` (style/colors.go:73). -/
def reHSL : Re := .seq (lit ['h', 's', 'l', '(']) (.seq reWs (.seq (reNum 1) (.seq reComma (.seq (reNum 2)
  (.seq rePctComma (.seq (reNum 3) (.seq (.cls (· == '%')) reClose)))))))
/-- `strColorHSLARegexp` (style/colors.go:74). -/
def reHSLA : Re := .seq (lit ['h', 's', 'l', 'a', '(']) (.seq reWs (.seq (reNum 1) (.seq reComma (.seq (reNum 2)
  (.seq rePctComma (.seq (reNum 3) (.seq rePctComma (.seq (reAlpha 4) reClose))))))))
/-- `strColorRGBRegexp` (style/colors.go:75). -/
def reRGB : Re := .seq (lit ['r', 'g', 'b', '(']) (.seq reWs (.seq (reNum 1) (.seq reComma (.seq (reNum 2)
  (.seq reComma (.seq (reNum 3) reClose))))))
/-- `strColorRGBARegexp` (style/colors.go:76). -/
def reRGBA : Re := .seq (lit ['r', 'g', 'b', 'a', '(']) (.seq reWs (.seq (reNum 1) (.seq reComma (.seq (reNum 2)
  (.seq reComma (.seq (reNum 3) (.seq reComma (.seq (reAlpha 4) reClose))))))))

/-- `strconv.ParseUint(s, 10, 8)`: a value above 255 is a range error.
Go library strconv, called at style/colors.go:190, 213. -/
def parseUint8 (s : List Char) : Except Fail Nat :=
  match parseUint s 10 with
  | .error _ => .error .err
  | .ok n => if n ≤ 255 then .ok n else .error .err

/-- `math.Round`: half away from zero. Go library math, called at style/colors.go:177, 205. -/
def goRound (q : ℚ) : Int := if 0 ≤ q then ⌊q + 1 / 2⌋ else -⌊-q + 1 / 2⌋

/-- `uint8(math.Round(alpha*256) - 1)` (style/colors.go:177, 205). -/
def alphaByte (rnd : ℚ → ℚ) (alpha : ℚ) : Option Nat := toU8 (rnd ((goRound (rnd (alpha * 256)) : ℚ) - 1))

/-- The three byte components (style/colors.go:188-195, 211-218). -/
def rgbFragments (m : Caps) : Except Fail (Nat × Nat × Nat) :=
  match parseUint8 (m.get 1) with
  | .error e => .error e
  | .ok r =>
    match parseUint8 (m.get 2) with
    | .error e => .error e
    | .ok g =>
      match parseUint8 (m.get 3) with
      | .error e => .error e
      | .ok b => .ok (r, g, b)

/-- `getRGBColor` (style/colors.go:209-226). -/
def getRGBColor (m : Caps) (defaultAlpha : Nat) : Except Fail Parsed :=
  match rgbFragments m with
  | .error e => .error e
  | .ok (r, g, b) => .ok (.rgba r g b (some defaultAlpha))

/-- `getRGBAColor` (style/colors.go:186-207). -/
def getRGBAColor (rnd : ℚ → ℚ) (m : Caps) : Except Fail Parsed :=
  match rgbFragments m with
  | .error e => .error e
  | .ok (r, g, b) =>
    match parseFin rnd (m.get 4) with
    | none => .error .err
    | some a => .ok (.rgba r g b (alphaByte rnd a))

/-- `NewHSLColor` (colorextra/hsl.go:15-45) with `AssertInRangeFloat64` (style/colorextra/validation.go:12-17). -/
def newHSLColor (h s l : ℚ) (a : Option Nat) : Except Fail Parsed :=
  if h < 0 ∨ 360 < h then .error .err
  else if s < 0 ∨ 1 < s then .error .err
  else if l < 0 ∨ 1 < l then .error .err
  else .ok (.hsl h s l a)

/-- The three float components (style/colors.go:139-148, 164-171). -/
def hslFragments (rnd : ℚ → ℚ) (m : Caps) : Except Fail (ℚ × ℚ × ℚ) :=
  match parseFin rnd (m.get 1) with
  | none => .error .err
  | some h =>
    match parseFin rnd (m.get 2) with
    | none => .error .err
    | some s =>
      match parseFin rnd (m.get 3) with
      | none => .error .err
      | some l => .ok (h, s, l)

/-- `getHSLColor` (style/colors.go:138-160). -/
def getHSLColor (rnd : ℚ → ℚ) (m : Caps) (defaultAlpha : Nat) : Except Fail Parsed :=
  match hslFragments rnd m with
  | .error e => .error e
  | .ok (h, s, l) => newHSLColor h (rnd (s / 100)) (rnd (l / 100)) (some defaultAlpha)

/-- `getHSLAColor` (style/colors.go:162-184). -/
def getHSLAColor (rnd : ℚ → ℚ) (m : Caps) : Except Fail Parsed :=
  match hslFragments rnd m with
  | .error e => .error e
  | .ok (h, s, l) =>
    match parseFin rnd (m.get 4) with
    | none => .error .err
    | some a => newHSLColor h (rnd (s / 100)) (rnd (l / 100)) (alphaByte rnd a)

/-- The part of `strToColor` after the hex test (style/colors.go:88-104).  Go matches with `MatchString` and then
calls `FindStringSubmatch` with the same pattern, which finds the same match. -/
def funcColor (rnd : ℚ → ℚ) (str : List Char) (defaultAlpha : Nat) : Except Fail Parsed :=
  match reHSL.find str with
  | some m => getHSLColor rnd m defaultAlpha
  | none =>
    match reHSLA.find str with
    | some m => getHSLAColor rnd m
    | none =>
      match reRGB.find str with
      | some m => getRGBColor m defaultAlpha
      | none =>
        match reRGBA.find str with
        | some m => getRGBAColor rnd m
        | none => .error .err

/-- `strToColor` (style/colors.go:79-105). -/
def strToColor (rnd : ℚ → ℚ) (str : List Char) (defaultAlpha : Nat) : Except Fail Parsed :=
  if str = [] then .ok .nil
  else if str.head? = some '#' then getHexColor str defaultAlpha
  else funcColor rnd str defaultAlpha

end Verif.Style
