import Mathlib.Data.Rat.Floor
import Mathlib.Algebra.Order.Floor.Ring
import Mathlib.Data.Nat.Sqrt

/-!
# Model of raster/raster.go

A pixel array is a list; an index outside it makes the whole function `none` (Go panics).
Heights are rationals (every finite float64 is one).  Arithmetic takes a rounding function `rnd`,
applied after every floating point operation: `id` gives exact arithmetic, `Verif.F64.rnd` float64.
-/
namespace Verif.Raster

/-- A `[4]byte` pixel (raster/raster.go:39). -/
structure Px where
  r : Fin 256
  g : Fin 256
  b : Fin 256
  a : Fin 256
deriving DecidableEq, Repr

/-- The zero value of `[4]byte`, with which `make` fills (raster/raster.go:78). -/
def Px.zero : Px := ⟨0, 0, 0, 0⟩

/-- `DEMData` (raster/raster.go:35-40). -/
structure DEM where
  encoding : Int
  dim : Nat
  stride : Nat
  data : List Px
deriving DecidableEq, Repr

/-- `img[i] = p`, panicking out of range. Go language, for raster/raster.go:72-97. -/
def wr (img : List Px) (i : Nat) (p : Px) : Option (List Px) :=
  if i < img.length then some (img.set i p) else none

/-- `img[dst] = img[src]`. Go language, for raster/raster.go:72-97. -/
def cp (img : List Px) (dst src : Nat) : Option (List Px) :=
  match img[src]? with
  | none => none
  | some p => wr img dst p

/-- `img[dst] = data[src]` for another array. Go language, for raster/raster.go:72-97. -/
def cpFrom (data img : List Px) (dst src : Nat) : Option (List Px) :=
  match data[src]? with
  | none => none
  | some p => wr img dst p

/-- `for i := 0; i < n; i++ { img = body(img, i) }`, stopping at a panic.
Go language, for raster/raster.go:72-97. -/
def loop (n : Nat) (body : List Px → Nat → Option (List Px)) (img : List Px) :
    Option (List Px) :=
  (List.range n).foldlM body img

/-- The first loop of `NewDEMData` (raster/raster.go:79-83). -/
def fillInner (data : List Px) (dim stride : Nat) (img : List Px) : Option (List Px) :=
  loop dim (fun img r => loop dim (fun img c =>
    cpFrom data img ((r + 1) * stride + c + 1) (r * dim + c)) img) img

/-- The second loop (raster/raster.go:85-89): left and right border. -/
def fillSides (dim stride : Nat) (img : List Px) : Option (List Px) :=
  loop dim (fun img x =>
    let rowOffset := stride * (x + 1)
    match cp img rowOffset (rowOffset + 1) with
    | none => none
    | some img => cp img (rowOffset + dim + 1) (rowOffset + dim)) img

/-- The third loop (raster/raster.go:91-94): top and bottom border, corners included. -/
def fillTopBottom (dim stride : Nat) (img : List Px) : Option (List Px) :=
  loop stride (fun img r =>
    match cp img r (stride + r) with
    | none => none
    | some img => cp img (stride * (dim + 1) + r) (stride * dim + r)) img

/-- `NewDEMData` (raster/raster.go:72-97).  Outer `none`: panic; `some none`: returns nil.
Simplification: `int(math.Sqrt(float64(n)))` is the integer square root (equal below 2^52). -/
def newDEM (data : List Px) (encoding : Int) : Option (Option DEM) :=
  if data.length % 2 ≠ 0 then some none
  else
    let dim := Nat.sqrt data.length
    let stride := dim + 2
    let img := List.replicate (stride * stride) Px.zero
    match fillInner data dim stride img with
    | none => none
    | some img =>
      match fillSides dim stride img with
      | none => none
      | some img =>
        match fillTopBottom dim stride img with
        | none => none
        | some img => some (some ⟨encoding, dim, stride, img⟩)

/-- `DEMData.idx` (raster/raster.go:99-101). -/
def DEM.idx (d : DEM) (x y : Int) : Int := (y + 1) * d.stride + (x + 1)

/-- `a[i]` with a signed index: `none` (panic) for negative or too large.
Go language, for raster/raster.go:103-138. -/
def getI {α : Type*} (l : List α) (i : Int) : Option α :=
  if i < 0 then none else l[i.toNat]?

/-- `a[i] = p` with a signed index. Go language, for raster/raster.go:103-138. -/
def wrI (l : List Px) (i : Int) (p : Px) : Option (List Px) :=
  if i < 0 then none else wr l i.toNat p

/-- The integers `lo, lo+1, …, hi-1` (the values of `for x := lo; x < hi; x++`).
Go language, for raster/raster.go:103-138. -/
def irange (lo hi : Int) : List Int := (List.range (hi - lo).toNat).map fun (k : Nat) => lo + k

/-- The range `[min,max)` that `BackfillBorder` walks on one axis (raster/raster.go:107-122). -/
def backRange (dim d : Int) : Int × Int :=
  let mn := d * dim
  let mx := d * dim + dim
  if d = -1 then (mx - 1, mx) else if d = 1 then (mn, mn + 1) else (mn, mx)

/-- One assignment of `BackfillBorder` (raster/raster.go:129). -/
def backCell (d nb : DEM) (ox oy : Int) (img : List Px) (x y : Int) : Option (List Px) :=
  match getI nb.data (d.idx (x + ox) (y + oy)) with
  | none => none
  | some p => wrI img (d.idx x y) p

/-- What `BackfillBorder` does once past its test (raster/raster.go:107-131): `none` is a panic. -/
def backfillLoop (d nb : DEM) (dx dy : Int) : Option DEM :=
  let xs := backRange d.dim dx
  let ys := backRange d.dim dy
  let ox := -dx * d.dim
  let oy := -dy * d.dim
  let img := (irange ys.1 ys.2).foldlM (fun img y =>
    (irange xs.1 xs.2).foldlM (fun img x => backCell d nb ox oy img x y) img) d.data
  match img with
  | none => none
  | some img => some { d with data := img }

/-- `BackfillBorder` (raster/raster.go:103-132): `none` is a panic. -/
def backfill (d nb : DEM) (dx dy : Int) : Option DEM :=
  if d.dim = nb.dim then some d else backfillLoop d nb dx dy

/-- `UNPACK_MAPBOX` (raster/raster.go:31), as the float64 constants `rnd` makes of the literals. -/
def unpackMapbox (rnd : ℚ → ℚ) : ℚ × ℚ × ℚ × ℚ :=
  (rnd (65536 / 10), rnd (256 / 10), rnd (1 / 10), rnd 10000)

/-- `UNPACK_TERRARIUM` (raster/raster.go:32). -/
def unpackTerrarium (rnd : ℚ → ℚ) : ℚ × ℚ × ℚ × ℚ :=
  (rnd 256, rnd 1, rnd (1 / 256), rnd 32768)

/-- The arithmetic of `Get` (raster/raster.go:137) on one pixel. -/
def decode (rnd : ℚ → ℚ) (u : ℚ × ℚ × ℚ × ℚ) (p : Px) : ℚ :=
  rnd (rnd (rnd (rnd (p.r.val * u.1) + rnd (p.g.val * u.2.1)) + rnd (p.b.val * u.2.2.1)) - u.2.2.2)

/-- `getUnpackVector` (raster/raster.go:150-155). -/
def unpackOf (rnd : ℚ → ℚ) (encoding : Int) : ℚ × ℚ × ℚ × ℚ :=
  if encoding = 0 then unpackMapbox rnd else unpackTerrarium rnd

/-- `DEMData.Get` (raster/raster.go:134-138): `none` is a panic. -/
def DEM.get (rnd : ℚ → ℚ) (d : DEM) (x y : Int) : Option ℚ :=
  match getI d.data (d.idx x y) with
  | none => none
  | some p => some (decode rnd (unpackOf rnd d.encoding) p)

/-- `DEMData.GetData` (raster/raster.go:140-148): the entry written at `x*Dim+y` is `Get(x,y)`, the outer
loop over `x`; every entry of the result is written exactly once, in order. -/
def DEM.getData (rnd : ℚ → ℚ) (d : DEM) : Option (List ℚ) :=
  ((List.range d.dim).flatMap fun x => (List.range d.dim).map fun y => (x, y)).mapM
    fun (p : Nat × Nat) => d.get rnd p.1 p.2

/-- `byte(v)` of a float64 or int: truncation, then the low eight bits.  (Go leaves the conversion
of a float outside 0..255 to the platform; the theorems stay inside or say so.)
Go language and library math, at raster/raster.go:184-215. -/
def toByte (v : Int) : Fin 256 := ⟨(v % 256).toNat, by omega⟩

/-- Truncation toward zero, Go's `int(f)`. Go language and library math, at raster/raster.go:184-215. -/
def trunc (q : ℚ) : Int := if 0 ≤ q then ⌊q⌋ else ⌈q⌉

/-- The floor of a float64 (exact, hence not rounded).
Go language and library math, at raster/raster.go:184-215. -/
def fl (q : ℚ) : ℚ := (⌊q⌋ : ℤ)

/-- `val` in `MapboxPacker.Pack` (raster/raster.go:186). -/
def mapboxVal (rnd : ℚ → ℚ) (h : ℚ) : ℚ :=
  rnd (rnd (h + (unpackMapbox rnd).2.2.2) / (unpackMapbox rnd).2.2.1)

/-- The three byte expressions of `MapboxPacker.Pack` (raster/raster.go:184-199) from `val`. -/
def packMapboxVal (rnd : ℚ → ℚ) (val : ℚ) : Px :=
  let v1 := rnd (val / 256)
  let v2 := rnd (fl v1 / 256)
  let v3 := rnd (fl v2 / 256)
  let r := rnd (rnd (v3 - fl v3) * 256)
  let g := rnd (rnd (v2 - fl v2) * 256)
  let b := rnd (rnd (v1 - fl v1) * 256)
  ⟨toByte (trunc r), toByte (trunc g), toByte (trunc b), 255⟩

/-- `MapboxPacker.Pack` (raster/raster.go:184-199). -/
def packMapbox (rnd : ℚ → ℚ) (h : ℚ) : Px := packMapboxVal rnd (mapboxVal rnd h)

/-- `TerrariumPacker.Pack` (raster/raster.go:204-215).  `Int.tmod` is Go's `%`. -/
def packTerrarium (rnd : ℚ → ℚ) (h : ℚ) : Px :=
  let val := rnd (h + (unpackTerrarium rnd).2.2.2)
  let r := fl (rnd (val / 256))
  let g := (trunc val).tmod 256
  let b := (trunc (rnd (val * 256))).tmod 25
  ⟨toByte (trunc r), toByte g, toByte b, 255⟩

end Verif.Raster
