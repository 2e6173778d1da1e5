import Verif.Model.StyleZoom

/-!
# Model of style/colorextra (hue.go, hsl.go, hsv.go, uint32.go)

Numbers live in an ordered field `K`; `Trig` supplies the rounding of every floating point operation and
Go's `math.Sqrt`, `math.Acos` and `math.Pi`.  `K = ℝ` with no rounding is exact arithmetic, `K = ℚ` with
`Verif.F64.rnd` is float64.
-/
namespace Verif.Style

/-- Floating point with the functions colorextra uses. Go library math, called at style/colorextra/hue.go:22-32. -/
structure Trig (K : Type) where
  rnd : K → K
  sqrt : K → K
  acos : K → K
  pi : K

variable {K : Type} [Field K] [LinearOrder K] [IsStrictOrderedRing K] [FloorRing K]

/-- `underSqRoot` (style/colorextra/hue.go:23); `math.Pow(x, 2)` is `x*x`. -/
def hueUnder (T : Trig K) (r g b : K) : K :=
  T.rnd (T.rnd (T.rnd (T.rnd (r * r) + T.rnd (g * g)) + T.rnd (b * b)) -
    T.rnd (T.rnd (T.rnd (r * g) + T.rnd (r * b)) + T.rnd (g * b)))

/-- `beforeSqRoot` (style/colorextra/hue.go:24). -/
def hueBefore (T : Trig K) (r g b : K) : K :=
  T.rnd (r - T.rnd (T.rnd (g / 2) + T.rnd (b / 2)))

/-- `inBrackets` (style/colorextra/hue.go:25-32): the argument of `math.Acos`. -/
def hueArg (T : Trig K) (r g b : K) : K :=
  if 0 < hueUnder T r g b then T.rnd (hueBefore T r g b / T.sqrt (hueUnder T r g b)) else 1

/-- `arccosDeg` (style/colorextra/hue.go:33-36). -/
def hueDeg (T : Trig K) (r g b : K) : K := T.rnd (T.rnd (T.acos (hueArg T r g b) * 180) / T.pi)

/-- `getHue` (style/colorextra/hue.go:8-43). -/
def getHue (T : Trig K) (r g b : Nat) : K :=
  if b ≤ g then hueDeg T r g b else T.rnd (360 - hueDeg T r g b)

/-- `HSLColor` (style/colorextra/hsl.go:8-13). -/
structure HSL (K : Type) where
  h : K
  s : K
  l : K
  a : Nat

/-- the largest and smallest channel (style/colorextra/hsl.go:52-53, style/colorextra/hsv.go:53-54) -/
def chMax (T : Trig K) (r g b : Nat) : K :=
  max (T.rnd ((r : K) / 255)) (max (T.rnd ((g : K) / 255)) (T.rnd ((b : K) / 255)))
/-- style/colorextra/hsl.go:52-53. -/
def chMin (T : Trig K) (r g b : Nat) : K :=
  min (T.rnd ((r : K) / 255)) (min (T.rnd ((g : K) / 255)) (T.rnd ((b : K) / 255)))

/-- `l` (style/colorextra/hsl.go:57) -/
def lightness (T : Trig K) (mx mn : K) : K := T.rnd (T.rnd (mx + mn) / 2)

/-- the denominator of `s` (style/colorextra/hsl.go:66-70) -/
def satDen (T : Trig K) (mx mn : K) : K :=
  if 1 / 2 < lightness T mx mn then T.rnd (T.rnd (2 - mx) - mn) else T.rnd (mx + mn)

/-- `NewHSLFromRGB` (style/colorextra/hsl.go:47-73). -/
def hslFromRGB (T : Trig K) (r g b a : Nat) : HSL K :=
  let mx := chMax T r g b
  let mn := chMin T r g b
  let l := lightness T mx mn
  if mx = mn then ⟨0, 0, l, a⟩
  else ⟨getHue T r g b, T.rnd (T.rnd (mx - mn) / satDen T mx mn), l, a⟩

/-- `HSVColor` (style/colorextra/hsv.go:8-13). -/
structure HSV (K : Type) where
  h : K
  s : K
  v : K
  a : Nat

/-- `NewHSVFromRGB` (style/colorextra/hsv.go:47-68). -/
def hsvFromRGB (T : Trig K) (r g b a : Nat) : HSV K :=
  let mx := chMax T r g b
  let mn := chMin T r g b
  ⟨getHue T r g b, if 0 < mx then T.rnd (1 - T.rnd (mn / mx)) else 0, mx, a⟩

/-- `AssertInRangeFloat64` (style/colorextra/validation.go:12-17): is there an error?  `none` is NaN, with which both comparisons
are false. -/
def outOfRange (lo hi : K) : Option K → Bool
  | none => false
  | some x => decide (x < lo) || decide (x > hi)

/-- `NewHSVColor` (style/colorextra/hsv.go:15-45) on floats that may be NaN; `none` is an error. -/
def newHSV (h s v : Option K) (a : Nat) : Option (Option K × Option K × Option K × Nat) :=
  if outOfRange 0 360 h then none
  else if outOfRange 0 1 s then none
  else if outOfRange 0 1 v then none
  else some (h, s, v, a)

/-- `NewHSLColor` (style/colorextra/hsl.go:15-45) on floats that may be NaN; `none` is an error. -/
def newHSL (h s l : Option K) (a : Nat) : Option (Option K × Option K × Option K × Nat) :=
  if outOfRange 0 360 h then none
  else if outOfRange 0 1 s then none
  else if outOfRange 0 1 l then none
  else some (h, s, l, a)

/-- `math.Round`: half away from zero. Go library math, called at style/colorextra/hsl.go:76. -/
def roundK (x : K) : Int := if 0 ≤ x then ⌊x + 1 / 2⌋ else -⌊-x + 1 / 2⌋

/-- `zeroToOneColorToUint32` (style/colorextra/hsl.go:75-80); `none` when the float does not fit a `uint32`. -/
def zeroToOne (T : Trig K) (x : K) : Option Nat :=
  let n := roundK (T.rnd (255 * x))
  if 0 ≤ n ∧ n < 4294967296 then some ((n.toNat ||| (n.toNat <<< 8)) % 4294967296) else none

/-- `ConvertUint8ToUint32Color` (style/colorextra/uint32.go:3-6). -/
def u8to32 (a : Nat) : Nat := (a * 256 + a) % 4294967296

/-- `t` after the two wraps of `hueToRGB` (style/colorextra/hsl.go:112-117). -/
def hueWrap (T : Trig K) (t : K) : K :=
  let t1 := if t < 0 then T.rnd (t + 360) else t
  if 360 < t1 then T.rnd (t1 - 360) else t1

/-- `hueToRGB` (style/colorextra/hsl.go:111-129). -/
def hueToRGB (T : Trig K) (p q t0 : K) : K :=
  let t := hueWrap T t0
  if t < 60 then T.rnd (p + T.rnd (T.rnd (q - p) * T.rnd (t / 60)))
  else if t < 180 then q
  else if t < 240 then T.rnd (p + T.rnd (T.rnd (T.rnd (q - p) * T.rnd (240 - t)) / 60))
  else p

/-- `q` (style/colorextra/hsl.go:92-97) -/
def hslQ (T : Trig K) (s l : K) : K :=
  if l < 1 / 2 then T.rnd (l * T.rnd (1 + s)) else T.rnd (T.rnd (l + s) - T.rnd (l * s))
/-- `p` (style/colorextra/hsl.go:98) -/
def hslP (T : Trig K) (s l : K) : K := T.rnd (T.rnd (2 * l) - hslQ T s l)

/-- `HSLColor.RGBA` (style/colorextra/hsl.go:82-105): the four 16-bit channels. -/
def HSL.rgba (T : Trig K) (c : HSL K) : Option Nat × Option Nat × Option Nat × Nat :=
  let a := u8to32 c.a
  if c.s = 0 then (zeroToOne T c.l, zeroToOne T c.l, zeroToOne T c.l, a)
  else
    let q := hslQ T c.s c.l
    let p := hslP T c.s c.l
    (zeroToOne T (hueToRGB T p q (T.rnd (c.h + 120))), zeroToOne T (hueToRGB T p q c.h),
      zeroToOne T (hueToRGB T p q (T.rnd (c.h - 120))), a)

end Verif.Style
