import Verif.Model.Raster

/-!
# Model of the image functions of raster/raster.go

An image is a rectangle and a colour per point, as in Go's image package. Files are not modelled: `imaging.Save` followed by
`image.Decode` is taken to return the image (true of PNG and lossless WebP, not of JPEG), and a GeoTIFF is what `cog.Read`
returns.
-/
namespace Verif.Raster

/-- `image.NRGBA` (Go library image, used at raster/raster.go:158, 223): the pixels outside the rectangle do not exist. -/
structure Img where
  x0 : Int
  y0 : Int
  x1 : Int
  y1 : Int
  px : Int → Int → Px

/-- `image.Point.In(rect)`. Go library image, for raster/raster.go:42-62. -/
def Img.has (m : Img) (x y : Int) : Bool := m.x0 ≤ x && x < m.x1 && m.y0 ≤ y && y < m.y1

/-- `At`: the zero colour outside. Go library image, at raster/raster.go:55. -/
def Img.at (m : Img) (x y : Int) : Px := if m.has x y then m.px x y else Px.zero

/-- `SetNRGBA`: nothing happens outside. Go library image, at raster/raster.go:163-168, 232-237. -/
def Img.set (m : Img) (x y : Int) (p : Px) : Img :=
  if m.has x y then { m with px := fun a b => if a = x ∧ b = y then p else m.px a b } else m

/-- `image.NewNRGBA(rect)`. Go library image, at raster/raster.go:158, 223. -/
def Img.new (x0 y0 x1 y1 : Int) : Img := ⟨x0, y0, x1, y1, fun _ _ => Px.zero⟩

/-- One channel of `color.RGBAModel.Convert` of an NRGBA colour: multiplied by alpha in 16 bits, then the high byte (Go library
image/color, at raster/raster.go:56). -/
def premul (v a : Fin 256) : Fin 256 := ⟨v.val * 257 * a.val / 255 / 256, by
  have h1 := v.isLt; have h2 := a.isLt
  have : v.val * 257 * a.val ≤ 255 * 257 * 255 := Nat.mul_le_mul (by omega) (by omega)
  omega⟩

/-- raster/raster.go:56-58: convert to RGBA; the low byte of the 16-bit channels of an RGBA colour is the channel. -/
def toRGBA (p : Px) : Px := ⟨premul p.r p.a, premul p.g p.a, premul p.b p.a, p.a⟩

/-- `for y < n { for x < m { img.SetNRGBA(x, y, f(x, y)) } }`, where `f` may panic (raster/raster.go:160-169, 228-240). -/
def gridSet (n m : Nat) (f : Nat → Nat → Option Px) (img : Img) : Option Img :=
  (List.range n).foldlM (fun img y => (List.range m).foldlM (fun img x => (f x y).map (img.set x y)) img) img

/-- The image that `DEMData.Save` writes (raster/raster.go:157-172); `none` is a panic. -/
def DEM.image (d : DEM) : Option Img :=
  gridSet d.dim d.dim (fun x y => getI d.data (d.idx x y)) (Img.new 0 0 d.dim d.dim)

/-- `LoadDEMDataWithStream` on a decoded image (raster/raster.go:42-62): `none` a panic, `some none` an error, `some (some r)` the
returned pointer with a nil error (`r = none`: a nil pointer). The loops write each entry of `data` once, in order. -/
def loadDEM (m : Img) (encoding : Int) : Option (Option (Option DEM)) :=
  if m.x1 - m.x0 ≠ m.y1 - m.y0 then some none
  else
    let dx := (m.x1 - m.x0).toNat
    let dy := (m.y1 - m.y0).toNat
    let data := (List.range dy).flatMap fun (y : Nat) => (List.range dx).map fun (x : Nat) => toRGBA (m.at x y)
    (newDEM data encoding).map some

/-- `DemEncode` (raster/raster.go:217-243) on the first raster of the file: its rectangle and its heights. `none` is a panic. -/
def demEncode (pack : ℚ → Px) (x0 y0 x1 y1 : Int) (data : List ℚ) : Option Img :=
  let row := (y1 - y0).toNat
  let col := (x1 - x0).toNat
  gridSet row col (fun x y => (data[y * col + x]?).map pack) (Img.new x0 y0 x1 y1)

end Verif.Raster
