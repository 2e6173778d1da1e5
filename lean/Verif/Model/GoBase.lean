/-!
# Go machine integers and `strconv`/`strings` helpers

These model the parts of the Go language and standard library that the code in /repo relies on.
They are not code of /repo; they belong to the trusted base (see DESIGN.md).
-/
namespace Verif.Go

/-- Conversion to `int64` (two's complement wrap), as Go's `int64(x)` / `int(x)` / int64 arithmetic.
Go language; used throughout, e.g. for tileid/tileid.go:19-23, mvt/write_geometry.go:103-124. -/
def i64 (x : Int) : Int := Int.bmod x 18446744073709551616
/-- Conversion to `int32`.
Go language; used throughout, e.g. for tileid/tileid.go:19-23, mvt/write_geometry.go:103-124. -/
def i32 (x : Int) : Int := Int.bmod x 4294967296
/-- Conversion to `uint64`.
Go language; used throughout, e.g. for tileid/tileid.go:19-23, mvt/write_geometry.go:103-124. -/
def u64 (x : Int) : Nat := (x % 18446744073709551616).toNat

/-- The values an `int64` can hold.
Go language; used throughout, e.g. for tileid/tileid.go:19-23, mvt/write_geometry.go:103-124. -/
def IsI64 (x : Int) : Prop := -9223372036854775808 ≤ x ∧ x < 9223372036854775808
/-- The values an `int32` can hold.
Go language; used throughout, e.g. for tileid/tileid.go:19-23, mvt/write_geometry.go:103-124. -/
def IsI32 (x : Int) : Prop := -2147483648 ≤ x ∧ x < 2147483648
/-- The values a `uint64` can hold.
Go language; used throughout, e.g. for tileid/tileid.go:19-23, mvt/write_geometry.go:103-124. -/
def IsU64 (n : Nat) : Prop := n < 18446744073709551616

instance (x : Int) : Decidable (IsI64 x) := by unfold IsI64; infer_instance
instance (x : Int) : Decidable (IsI32 x) := by unfold IsI32; infer_instance
instance (x : Nat) : Decidable (IsU64 x) := by unfold IsU64; infer_instance

/-- `strconv.Itoa(n)` / `FormatInt(n, 10)`: decimal digits with a leading `-` for negative numbers. Strings are
lists of characters; all strings handled by the modelled code paths are ASCII, where Go's bytes and
characters coincide.
Go library strconv, called at tileid/tileid.go:71, 108, mbtiles/metadata.go:56-57, 203, sprite/style_file.go:37. -/
def itoa (n : Int) : List Char :=
  if n < 0 then '-' :: Nat.toDigits 10 n.natAbs else Nat.toDigits 10 n.natAbs

/-- Errors of `strconv.Parse*`.
Go library strconv, called at tileid/tileid.go:78-80, 128-130, sprite/style_file.go:56, mbtiles/metadata.go:213, style/colors.go:123, 190, 213. -/
inductive NumError | syntax | range
  deriving DecidableEq, Repr

/-- ASCII lower-casing of a letter, as strconv's `lower(c) = c | ('x' - 'X')` on letters.
Go library strconv, called at tileid/tileid.go:78-80, 128-130, sprite/style_file.go:56, mbtiles/metadata.go:213, style/colors.go:123, 190, 213. -/
def lower (c : Char) : Char := if 'A' ≤ c ∧ c ≤ 'Z' then Char.ofNat (c.toNat + 32) else c

/-- Value of a digit character in `ParseUint` (`0-9`, then letters from 10).
Go library strconv, called at tileid/tileid.go:78-80, 128-130, sprite/style_file.go:56, mbtiles/metadata.go:213, style/colors.go:123, 190, 213. -/
def digitVal (c : Char) : Option Nat :=
  if '0' ≤ c ∧ c ≤ '9' then some (c.toNat - 48)
  else if 'a' ≤ lower c ∧ lower c ≤ 'z' then some ((lower c).toNat - 97 + 10)
  else none

/-- The digit loop of `strconv.ParseUint` with `bitSize = 64`: `_` is skipped when `base0`, an invalid digit is
a syntax error, and exceeding 2^64-1 is a range error at that point.
Go library strconv, called at tileid/tileid.go:78-80, 128-130, sprite/style_file.go:56, mbtiles/metadata.go:213, style/colors.go:123, 190, 213. -/
def parseDigits (base0 : Bool) (base : Nat) : List Char → Nat → Except (NumError × Nat) Nat
  | [], n => .ok n
  | c :: cs, n =>
    if c = '_' ∧ base0 then parseDigits base0 base cs n
    else match digitVal c with
      | none => .error (.syntax, 0)
      | some d =>
        if d ≥ base then .error (.syntax, 0)
        else if n * base + d ≥ 18446744073709551616 then .error (.range, 18446744073709551615)
        else parseDigits base0 base cs (n * base + d)

/-- The character loop of `strconv.underscoreOK`; `i` is the state `'^'`, `'0'`, `'_'` or `'!'`.
Go library strconv, called at tileid/tileid.go:78-80, 128-130, sprite/style_file.go:56, mbtiles/metadata.go:213, style/colors.go:123, 190, 213. -/
def underscoreLoop (hex : Bool) : List Char → Char → Bool
  | [], i => i ≠ '_'
  | c :: cs, i =>
    if ('0' ≤ c ∧ c ≤ '9') ∨ (hex ∧ 'a' ≤ lower c ∧ lower c ≤ 'f') then underscoreLoop hex cs '0'
    else if c = '_' then (if i ≠ '0' then false else underscoreLoop hex cs '_')
    else if i = '_' then false
    else underscoreLoop hex cs '!'

/-- `strconv.underscoreOK` (on a string already stripped of its sign).
Go library strconv, called at tileid/tileid.go:78-80, 128-130, sprite/style_file.go:56, mbtiles/metadata.go:213, style/colors.go:123, 190, 213. -/
def underscoreOK (s : List Char) : Bool :=
  match s with
  | '0' :: p :: rest =>
    if lower p = 'b' ∨ lower p = 'o' ∨ lower p = 'x' then underscoreLoop (lower p = 'x') rest '0'
    else underscoreLoop false s '^'
  | _ => underscoreLoop false s '^'

/-- Base prefix handling of `strconv.ParseUint` for `base = 0`.
Go library strconv, called at tileid/tileid.go:78-80, 128-130, sprite/style_file.go:56, mbtiles/metadata.go:213, style/colors.go:123, 190, 213. -/
def basePrefix (s : List Char) : Nat × List Char :=
  match s with
  | '0' :: p :: d :: rest =>
    if lower p = 'b' then (2, d :: rest)
    else if lower p = 'o' then (8, d :: rest)
    else if lower p = 'x' then (16, d :: rest)
    else (8, p :: d :: rest)
  | '0' :: rest => (8, rest)
  | _ => (10, s)

/-- `strconv.ParseUint(s, base, 64)` for `base = 0` (prefix decides) or 2..36. The error carries the value that
is returned together with it.
Go library strconv, called at tileid/tileid.go:78-80, 128-130, sprite/style_file.go:56, mbtiles/metadata.go:213, style/colors.go:123, 190, 213. -/
def parseUint (s : List Char) (base : Nat) : Except (NumError × Nat) Nat :=
  if s = [] then .error (.syntax, 0)
  else
    let (b, ds) := if base = 0 then basePrefix s else (base, s)
    match parseDigits (base == 0) b ds 0 with
    | .error e => .error e
    | .ok n => if base = 0 ∧ '_' ∈ ds ∧ underscoreOK s = false then .error (.syntax, 0) else .ok n

/-- `strconv.ParseInt(s, base, 64)`; the error carries the value returned with it (0 for a syntax error, the
nearest bound for a range error).
Go library strconv, called at tileid/tileid.go:78-80, 128-130, sprite/style_file.go:56, mbtiles/metadata.go:213, style/colors.go:123, 190, 213. -/
def parseInt (s : List Char) (base : Nat) : Except (NumError × Int) Int :=
  if s = [] then .error (.syntax, 0)
  else
    let (neg, ds) := match s with
      | '+' :: r => (false, r)
      | '-' :: r => (true, r)
      | r => (false, r)
    let fin (un : Nat) : Except (NumError × Int) Int :=
      if ¬ neg ∧ un ≥ 9223372036854775808 then .error (.range, 9223372036854775807)
      else if neg ∧ un > 9223372036854775808 then .error (.range, -9223372036854775808)
      else .ok (if neg then -(un : Int) else un)
    match parseUint ds base with
    | .error (.syntax, _) => .error (.syntax, 0)
    | .error (.range, un) => fin un
    | .ok un => fin un

/-- `x, _ := strconv.ParseInt(s, 0, 64)`: the value with the error ignored. tileid/tileid.go:78-80, 128-130. -/
def parseInt0 (s : List Char) : Int :=
  match parseInt s 0 with
  | .ok v => v
  | .error (_, v) => v

/-- `strings.Split(s, sep)` for a one-character separator.
Go library strings, called at tileid/tileid.go:77, 117-125, mbtiles/metadata.go:144, 161, 211. -/
def split (sep : Char) : List Char → List (List Char)
  | [] => [[]]
  | c :: cs =>
    match split sep cs with
    | [] => [[]]            -- unreachable: split never returns an empty list
    | w :: ws => if c = sep then [] :: w :: ws else (c :: w) :: ws

end Verif.Go
