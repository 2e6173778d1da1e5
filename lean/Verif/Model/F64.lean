import Mathlib.Data.Rat.Floor
import Mathlib.Algebra.Order.Floor.Ring

/-!
# Float64 rounding

`rnd q` is the IEEE-754 binary64 value nearest to `q`, ties to even, for results in the normal
range (no subnormals, no overflow; the packers of raster.go never leave that range except at 0).
-/
namespace Verif.F64

/-- Nearest integer, ties to even.
Go language: the rounding of float64 arithmetic, for raster/raster.go:134-215, style/function.go:5-39 and style/colorextra/hsl.go:47-129. -/
def rne (q : ℚ) : ℤ :=
  let n := ⌊q⌋
  if q - n < 1 / 2 then n
  else if 1 / 2 < q - n then n + 1
  else if n % 2 = 0 then n else n + 1

/-- `2^e` for an integer exponent, computable by the kernel.
Go language: the rounding of float64 arithmetic, for raster/raster.go:134-215, style/function.go:5-39 and style/colorextra/hsl.go:47-129. -/
def pow2 (e : ℤ) : ℚ := if 0 ≤ e then ((2 ^ e.toNat : ℕ) : ℚ) else 1 / ((2 ^ (-e).toNat : ℕ) : ℚ)

/-- The exponent `e` with `2^e ≤ q < 2^(e+1)`, for `0 < q`.
Go language: the rounding of float64 arithmetic, for raster/raster.go:134-215, style/function.go:5-39 and style/colorextra/hsl.go:47-129. -/
def ilog (q : ℚ) : ℤ :=
  let e : ℤ := (Nat.log2 q.num.natAbs : ℤ) - Nat.log2 q.den
  if pow2 e ≤ q then e else e - 1

/-- Rounding to a 53-bit significand.
Go language: the rounding of float64 arithmetic, for raster/raster.go:134-215, style/function.go:5-39 and style/colorextra/hsl.go:47-129. -/
def rnd (q : ℚ) : ℚ :=
  if q = 0 then 0
  else
    let u := pow2 (ilog |q| - 52)
    rne (q / u) * u

/-- Rounding to binary64 with gradual underflow: below 2^-1022 the unit stays 2^-1074. The exponent is not bounded above, see `fits`.
Go library strconv (ParseFloat), for the numbers of JSON documents at client/client.go:55, mbtiles/mbtiles.go:323, 352, 409 and
style/style.go:65. -/
def rnd64 (q : ℚ) : ℚ :=
  if q = 0 then 0
  else
    let u := pow2 (max (ilog |q| - 52) (-1074))
    rne (q / u) * u

/-- Whether a rounded number is finite in float64. Go library strconv (ParseFloat: the range error), as for `rnd64`. -/
def fits (q : ℚ) : Bool := decide (|q| < pow2 1024)

end Verif.F64
