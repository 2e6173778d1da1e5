import Mathlib.Algebra.Order.Floor.Ring
import Mathlib.Algebra.Order.Field.Basic

/-!
# Model of the zoom functions of style/ (function.go, numeric_function.go, color_function.go) and of
`Layer.Validate` (layer.go)

Numbers live in an ordered field `K`.  `Arith` says what a floating point operation does: every
`+ - * /` of Go is the field operation followed by `rnd`; `math.Pow` is `pow`.  Taking `K = ℝ`,
`rnd = id`, `pow` the real power gives exact arithmetic; taking `K = ℚ`, `rnd = Verif.F64.rnd` gives
float64.  Infinities, NaN and the sign of zero are not modelled; where Go would produce NaN (`0/0`)
the field gives 0, and the theorems carry a hypothesis that excludes it.
-/
namespace Verif.Style

/-- What a Go function call can do besides returning.
Go language: error returns and panics in style/numeric_function.go:64-104, style/color_function.go:39-92. -/
inductive Fail | panic | err
deriving DecidableEq, Repr

/-- Floating point arithmetic. Go language: float64 arithmetic in style/function.go:5-39. -/
structure Arith (K : Type) where
  rnd : K → K
  pow : K → K → K

variable {K : Type} [Field K] [LinearOrder K] [IsStrictOrderedRing K] [FloorRing K]

/-- `getExponentialPercentage` (style/function.go:23-39). -/
def expPct (A : Arith K) (zoom lower higher base : K) : K :=
  let d := A.rnd (higher - lower)
  if d = 0 then 0
  else
    let p := A.rnd (zoom - lower)
    if base = 1 then A.rnd (p / d)
    else
      let top := A.rnd (A.pow base p - 1)
      let bottom := A.rnd (A.pow base d - 1)
      A.rnd (top / bottom)

/-- `getValueThroughStop` (style/function.go:16-21). -/
def valueThrough (A : Arith K) (this next progress : K) : K :=
  let diff := A.rnd (next - this)
  let x : K := (⌊A.rnd (diff * progress)⌋ : K)
  A.rnd (x + this)

/-- `numericStopType` (style/numeric_stop_type.go:5-8). -/
structure NumStop (K : Type) where
  zoom : K
  value : K
deriving DecidableEq

/-- `getNumericValueBetweenStops` (style/numeric_function.go:93-104); a nil base is 1 (93-96). -/
def numBetween (A : Arith K) (this next : NumStop K) (zoom : K) (base : Option K) : K :=
  let b := base.getD 1
  let pr := expPct A zoom this.zoom next.zoom b
  A.rnd (A.rnd (pr * |A.rnd (next.value - this.value)|) + this.value)

/-- The loop of `NumericFunctionType.GetValueAtZoomLevel` (style/numeric_function.go:74-89) from the stop
`this` with the stops after it. -/
def numLoop (A : Arith K) (base : Option K) (zoom : K) (this : NumStop K) : List (NumStop K) → K
  | [] => this.value
  | next :: rest =>
    if next.zoom ≤ zoom then numLoop A base zoom next rest
    else numBetween A this next zoom base

/-- `NumericFunctionType.GetValueAtZoomLevel` (style/numeric_function.go:64-90). -/
def numValue (A : Arith K) (stops : List (NumStop K)) (base : Option K) (zoom : K) : Except Fail K :=
  match stops with
  | [] => .error .panic
  | s :: rest => if zoom < s.zoom then .ok 0 else .ok (numLoop A base zoom s rest)

/-- `NumberOrFunctionWrapperType` (style/numeric_function.go:10-12) holding nothing (also the nil pointer), a
plain number (47-51) or a zoom function. -/
inductive NumProp (K : Type)
  | absent
  | plain (v : K)
  | fn (stops : List (NumStop K)) (base : Option K)

/-- `NumberOrFunctionWrapperType.GetValueAtZoomLevel` (style/numeric_function.go:14-19). -/
def NumProp.at (A : Arith K) (zoom : K) : NumProp K → Except Fail K
  | .absent => .ok 0
  | .plain v => .ok v
  | .fn stops base => numValue A stops base zoom

/-- A `color.Color` as this package makes them: nil, `color.RGBA` or `colorextra.HSLColor`.
style/color_function.go:39-92. -/
inductive Color (K : Type)
  | nil
  | rgba (r g b a : Nat)
  | hsl (h s l : K) (a : Nat)
deriving DecidableEq

/-- `colorStop` (style/color_function.go:8-11). -/
structure ColStop (K : Type) where
  zoom : K
  color : Color K
deriving DecidableEq

/-- Go's `uint8(x)` of a float64: truncation towards zero; outside 0..255 the language leaves the result
to the implementation, which is `none` here. style/color_function.go:39-92. -/
def toU8 (x : K) : Option Nat :=
  if -1 < x ∧ x < 256 then some ⌊x⌋.toNat else none

/-- `getColorValueBetweenStops` (style/color_function.go:85-92). -/
def colBetween (A : Arith K) (pct : K) (this next : Nat) : Option Nat :=
  toU8 (valueThrough A (this : K) (next : K) pct)

/-- A colour whose channels may be implementation-defined (see `toU8`). style/color_function.go:39-92. -/
inductive ColOut (K : Type)
  | color (c : Color K)
  | blend (r g b a : Option Nat)
deriving DecidableEq

/-- The blend of two stops (style/color_function.go:62-79); a colour that is not `color.RGBA` fails the type
assertion (69-70) and panics. -/
def colBlend (A : Arith K) (base : Option K) (zoom : K) (this next : ColStop K) : Except Fail (ColOut K) :=
  let pct := expPct A zoom this.zoom next.zoom (base.getD 1)
  match this.color, next.color with
  | .rgba r g b a, .rgba r' g' b' a' =>
    .ok (.blend (colBetween A pct r r') (colBetween A pct g g') (colBetween A pct b b') (colBetween A pct a a'))
  | _, _ => .error .panic

/-- The loop of `ColorStopsType.GetValueAtZoomLevel` (style/color_function.go:50-80). -/
def colLoop (A : Arith K) (base : Option K) (zoom : K) (this : ColStop K) :
    List (ColStop K) → Except Fail (ColOut K)
  | [] => .ok (.color this.color)
  | next :: rest =>
    if next.zoom ≤ zoom then colLoop A base zoom next rest
    else colBlend A base zoom this next

/-- `ColorStopsType.GetValueAtZoomLevel` (style/color_function.go:39-83). -/
def colValue (A : Arith K) (stops : List (ColStop K)) (base : Option K) (zoom : K) :
    Except Fail (ColOut K) :=
  match stops with
  | [] => .error .panic
  | s :: rest => if zoom < s.zoom then .ok (.color .nil) else colLoop A base zoom s rest

/-- `ColorType` (style/colors.go:19-21): absent (nil pointer or nil inner type), a plain colour (64-70) or zoom
stops. -/
inductive ColProp (K : Type)
  | absent
  | plain (c : Color K)
  | stops (stops : List (ColStop K)) (base : Option K)

/-- `ColorType.GetColorAtZoomLevel` (style/colors.go:23-28). -/
def ColProp.at (A : Arith K) (zoom : K) : ColProp K → Except Fail (ColOut K)
  | .absent => .ok (.color .nil)
  | .plain c => .ok (.color c)
  | .stops st base => colValue A st base zoom

/-- `Layer.Validate` (style/layer.go:36-52).  Go's `a != nil && x || y` is `(a != nil && x) || y`, so `y` is
evaluated, and dereferences the nil pointer, whenever the pointer is nil. -/
def layerValidate (minZoom maxZoom : Option K) : Except Fail Unit :=
  let first : Bool := match maxZoom, minZoom with
    | some mx, some mn => decide (mx < mn)
    | _, _ => false
  if first then .error .err
  else match maxZoom with
    | none => .error .panic
    | some mx =>
      if mx < 0 ∨ 24 < mx then .error .err
      else match minZoom with
        | none => .error .panic
        | some mn => if mn < 0 ∨ 24 < mn then .error .err else .ok ()

end Verif.Style
