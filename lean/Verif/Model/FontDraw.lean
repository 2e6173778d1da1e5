import Verif.Model.FontPbf
import Verif.Model.F64

/-!
# DrawGlyph of a glyph message, in float64 (font/utils.go:12-42)

Every operation of `alpha` is rounded with `F64.rnd`; the pixels are black, so an image is its size and its alphas.
-/
namespace Verif.FontPbf

open F64 (rnd)

/-- `alpha` (font/utils.go:39-42). The converted value lies between 0 and `x`, where `uint8` cuts off the fraction. -/
def alphaF (e0 e1 x : ℚ) : Nat :=
  let a := max (min (rnd (rnd (x - e1) / rnd (e1 - e0))) 1) 0
  ⌊rnd (rnd (rnd (a * a) * rnd (3 - rnd (2 * a))) * x)⌋.toNat

/-- An `*image.RGBA` whose colours are all black: size and alphas by rows (font/utils.go:16). -/
structure Picture where
  width : Nat
  height : Nat
  alphas : List Nat
  deriving DecidableEq, Repr

/-- `DrawGlyph` (font/utils.go:12-37); `none` is a panic: a size is nil, `image.NewRGBA` refuses 2^63 bytes or more, or the bitmap is too
short. The sizes are `uint32`s and wrap. -/
def drawGlyph (g : PGlyph) (smoothstep : Bool) : Option Picture :=
  match g.width, g.height with
  | some w, some h =>
    let width := (w + 6) % 4294967296
    let height := (h + 6) % 4294967296
    if 4 * width * height < 9223372036854775808 then
      ((List.range (height * width)).mapM fun i =>
        ((g.bitmap.getD [])[i]?).map fun (a : Nat) => if smoothstep then alphaF 136 168 (a : ℚ) else a).map (Picture.mk width height)
    else none
  | _, _ => none

end Verif.FontPbf
