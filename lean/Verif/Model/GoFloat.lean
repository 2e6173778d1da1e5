import Verif.Model.GoBase
import Verif.Model.F64

/-!
# `strconv.FormatFloat(x,'f',p,64)` and `strconv.ParseFloat`, and `strings.TrimSpace`

Not code of /repo; part of the trusted base.  A float64 is the rational it denotes; `rnd` is the
rounding of a rational to float64 (`Verif.F64.rnd`, or `id` for exact arithmetic).
Simplifications: no NaN, infinities or negative zero; `ParseFloat` does not know `inf`, `nan`,
hexadecimal floats (they are errors here); `parseFloat` never reports a range error, `parseFin` does; `parse64` also underflows
gradually.
-/
namespace Verif.Go

/-- `k` decimal digits of `n`, most significant first, zero padded.
Go library strconv, called at mbtiles/metadata.go:154, 171, 182. -/
def digitsPad : Nat → Nat → List Char
  | 0, _ => []
  | k + 1, n => digitsPad k (n / 10) ++ [Nat.digitChar (n % 10)]

/-- `FormatFloat(q,'f',p,64)` for `p > 0`: correctly rounded (ties to even) to `p` decimals.
Go library strconv, called at mbtiles/metadata.go:154, 171, 182. -/
def formatF (p : Nat) (q : Rat) : List Char :=
  let n := (F64.rne (|q| * (10 ^ p : Nat))).toNat
  (if q < 0 then ['-'] else []) ++ Nat.toDigits 10 (n / 10 ^ p) ++ ['.'] ++ digitsPad p (n % 10 ^ p)

/-- The number a digit string spells.
Go library strconv, called at mbtiles/metadata.go:145, 162, 192 and style/colors.go:142, 166, 196. -/
def digitsVal (ds : List Char) : Nat := ds.foldl (fun n c => n * 10 + (c.toNat - 48)) 0

/-- Split off leading decimal digits.
Go library strconv, called at mbtiles/metadata.go:145, 162, 192 and style/colors.go:142, 166, 196. -/
def spanDigits : List Char → List Char × List Char
  | [] => ([], [])
  | c :: cs => if c.isDigit then (c :: (spanDigits cs).1, (spanDigits cs).2) else ([], c :: cs)

/-- The sign of a numeral.
Go library strconv, called at mbtiles/metadata.go:145, 162, 192 and style/colors.go:142, 166, 196. -/
def spanSign : List Char → Bool × List Char
  | '+' :: r => (false, r)
  | '-' :: r => (true, r)
  | r => (false, r)

/-- The exponent part: nothing, or `e`/`E`, sign, digits, end.
Go library strconv, called at mbtiles/metadata.go:145, 162, 192 and style/colors.go:142, 166, 196. -/
def parseExp : List Char → Option Int
  | [] => some 0
  | c :: r =>
    if c = 'e' ∨ c = 'E' then
      let sg := spanSign r
      let d := spanDigits sg.2
      if d.1 = [] ∨ d.2 ≠ [] then none
      else some (if sg.1 then -(digitsVal d.1 : Int) else digitsVal d.1)
    else none

/-- Unsigned decimal numeral with optional fraction and exponent.
Go library strconv, called at mbtiles/metadata.go:145, 162, 192 and style/colors.go:142, 166, 196. -/
def parseUFloat (s : List Char) : Option Rat :=
  let a := spanDigits s
  let b := match a.2 with
    | '.' :: r => spanDigits r
    | r => ([], r)
  if a.1 = [] ∧ b.1 = [] then none
  else match parseExp b.2 with
    | none => none
    | some e => some ((digitsVal (a.1 ++ b.1) : Rat) / (10 ^ b.1.length : Nat) * (10 : Rat) ^ e)

/-- `strconv.ParseFloat(s, 64)`; `none` is an error (the returned value is then 0).
Go library strconv, called at mbtiles/metadata.go:145, 162, 192 and style/colors.go:142, 166, 196. -/
def parseFloat (rnd : Rat → Rat) (s : List Char) : Option Rat :=
  let sg := spanSign s
  match parseUFloat sg.2 with
  | none => none
  | some v => some (rnd (if sg.1 then -v else v))

/-- `strconv.ParseFloat(s, 64)` with the range error for numbers that round to 2^1024 or more.
Go library strconv, called at style/colors.go:142, 166, 196. -/
def parseFin (rnd : Rat → Rat) (s : List Char) : Option Rat :=
  match parseFloat rnd s with
  | some q => if F64.fits q then some q else none
  | none => none

/-- `strconv.ParseFloat(s, 64)` with gradual underflow and range errors, as encoding/json calls it on the text of a JSON number.
Simplification: negative zero is zero. Go library strconv, called by encoding/json for client/client.go:55, mbtiles/mbtiles.go:323,
352, 409 and style/style.go:65. -/
def parse64 (s : List Char) : Option Rat :=
  match parseFloat F64.rnd64 s with
  | some q => if F64.fits q then some q else none
  | none => none

/-- White space for `strings.TrimSpace` (ASCII part).
Go library strings, called at mbtiles/metadata.go:145, 162, 192, 213. -/
def isTrim (c : Char) : Bool :=
  c == '\t' || c == '\n' || c == '\x0b' || c == '\x0c' || c == '\r' || c == ' '

/-- `strings.TrimSpace`. Go library strings, called at mbtiles/metadata.go:145, 162, 192, 213. -/
def trimSpace (s : List Char) : List Char :=
  ((s.dropWhile isTrim).reverse.dropWhile isTrim).reverse

/-- `strings.Join(l, sep)` for a one-character separator.
Go library strings, called at mbtiles/metadata.go:157, 174, 206. -/
def join (sep : Char) : List (List Char) → List Char
  | [] => []
  | [a] => a
  | a :: b :: r => a ++ sep :: join sep (b :: r)

end Verif.Go
