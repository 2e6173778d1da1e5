import Verif.Model.Font
import Mathlib.Data.Rat.Floor

/-!
# Model of the options of font/sdf_builder.go

Sizes are rationals (every finite float64 is one; NaN and infinities are not modelled).
-/
namespace Verif.Font

/-- `SDFBuilderOpt` (font/sdf_builder.go:35-38). -/
structure Opt where
  fontSize : ℚ
  buffer : ℚ

/-- One turn of the loop of `NewSDFBuilder` (font/sdf_builder.go:21-28). -/
def takeOpt (b o : Opt) : Opt :=
  ⟨if o.fontSize ≠ 0 then o.fontSize else b.fontSize, if o.buffer ≠ 0 then o.buffer else b.buffer⟩

/-- The defaults of `Init` (font/sdf_builder.go:48-53). -/
def initOpt (b : Opt) : Opt :=
  ⟨if b.fontSize = 0 then 64 else b.fontSize, if b.buffer = 0 then 3 else b.buffer⟩

/-- `NewSDFBuilder` (font/sdf_builder.go:16-33): the settings of the builder. -/
def newSDFBuilder (opts : List Opt) : Opt := initOpt (opts.foldl takeOpt ⟨0, 0⟩)

/-- `int(b.Buffer)` (font/sdf_builder.go:116): truncation; the value is taken to fit. -/
def bufferInt (b : Opt) : Int := if 0 ≤ b.buffer then ⌊b.buffer⌋ else ⌈b.buffer⌉

/-- `fixed.Int26_6.Floor()` (golang.org/x/image/math/fixed): `x >> 6`, at font/sdf_builder.go:64-67. -/
def floor26 (x : Int) : Int := x / 64

/-- `math.Round(float64(n)/2)`: half away from zero. font/sdf_builder.go:65. -/
def roundHalf (n : Int) : Int := if 0 ≤ n then (n + 1) / 2 else -((-n + 1) / 2)

/-- `dotStartY` from the face's metrics in 26.6 fixed point (font/sdf_builder.go:60-67). -/
def dotStartY (height ascent descent : Int) : Int :=
  let designed := floor26 ascent + floor26 descent
  let fixed := roundHalf (floor26 height - designed) + 1
  floor26 height + floor26 descent + fixed

/-- `Coverage`, `CoverageTTFS` (font/cover.go:84-108): `parse` is `truetype.Parse` followed by `Unicodes` (`none`: an error), `langs` the
languages' exemplar characters. `none`: the error is returned. -/
def coverageOf {T : Type} (parse : T → Option (List Nat)) (langs : List (List Nat)) (ttfs : List T) : Option (List LangCov) :=
  (ttfs.mapM parse).map fun points => langs.map fun e => coverage e points

end Verif.Font
