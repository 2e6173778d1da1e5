import Verif.Model.StyleHsl

/-!
# Model of font/cover.go and font/sdf_builder.go

The distance transform is modelled over an ordered field `K` (exact arithmetic; for float64 see
`Verif.Model.FontFloat`).  A slice is a function on indices together with the common length `L = w*h` of all work slices;
every access that can be out of range is checked and panics (`none`).
-/
namespace Verif.Font

/-! ## cover.go -/

/-- `difference` (font/cover.go:10-23). -/
def difference (a b : List Nat) : List Nat := a.filter (fun x => !(b.contains x))

/-- The loop over the fonts (font/cover.go:58-64): per font the number of newly covered characters. -/
def coverLoop : List Nat → List (List Nat) → List Nat
  | _, [] => []
  | left, p :: ps => (left.length - (difference left p).length) :: coverLoop (difference left p) ps

/-- `LanguageCoverage` (font/cover.go:25-31) without name and id. -/
structure LangCov where
  total : Nat
  count : Nat
  coverages : List Nat
deriving DecidableEq, Repr

/-- One language in `coverage` (font/cover.go:53-79). -/
def coverage (exemplar : List Nat) (fonts : List (List Nat)) : LangCov :=
  ⟨exemplar.length, (coverLoop exemplar fonts).sum, coverLoop exemplar fonts⟩

/-! ## The distance transform (font/sdf_builder.go:201-268) -/

variable {K : Type} [Field K] [LinearOrder K] [IsStrictOrderedRing K] [FloorRing K]

/-- `INF` (font/sdf_builder.go:143). -/
def INF : K := 10 ^ 20

/-- The work slices `f d v z` (font/sdf_builder.go:152-155), shared by all calls, so they start with whatever the
previous call left.  `v` holds indices as floats; here naturals. -/
structure Bufs (K : Type) where
  f : Nat → K
  d : Nat → K
  v : Nat → Nat
  z : Nat → K

/-- `s[i] = x`. Go language, for font/sdf_builder.go:229-268. -/
def put {α : Type} (s : Nat → α) (i : Nat) (x : α) : Nat → α := fun j => if j = i then x else s j

/-- `getS` (font/sdf_builder.go:235-237) with `v[k] = vk`. -/
def getS (f : Nat → K) (q vk : Nat) : K :=
  ((f q + (q : K) * q) - (f vk + (vk : K) * vk)) / (2 * (q : K) - 2 * vk)

/-- The loop `for { if s <= z[k] { k--; s = getS(); continue }; break }` (font/sdf_builder.go:239-248): the final
`k`.  `none`: `k` becomes -1 and `v[k]` panics. -/
def popLoop (f : Nat → K) (v : Nat → Nat) (z : Nat → K) (q : Nat) : Nat → Option Nat
  | 0 => if getS f q (v 0) ≤ z 0 then none else some 0
  | k + 1 => if getS f q (v (k + 1)) ≤ z (k + 1) then popLoop f v z q k else some (k + 1)

/-- One turn of the first loop (font/sdf_builder.go:234-255); state `k`, `v`, `z`. -/
def buildStep (L : Nat) (f : Nat → K) (st : Nat × (Nat → Nat) × (Nat → K)) (q : Nat) :
    Option (Nat × (Nat → Nat) × (Nat → K)) :=
  match popLoop f st.2.1 st.2.2 q st.1 with
  | none => none
  | some k =>
    if k + 2 < L then
      some (k + 1, put st.2.1 (k + 1) q, put (put st.2.2 (k + 1) (getS f q (st.2.1 k))) (k + 2) INF)
    else none

/-- The loop `for { if z[k+1] < q { k++; continue }; break }` (font/sdf_builder.go:258-264); the first argument is
the number of entries of `z` after `z[k]`, `none` an index out of range. -/
def advance (z : Nat → K) (q : Nat) : Nat → Nat → Option Nat
  | 0, _ => none
  | m + 1, k => if z (k + 1) < (q : K) then advance z q m (k + 1) else some k

/-- One turn of the second loop (font/sdf_builder.go:257-267); state `k`, `d`. -/
def scanStep (L : Nat) (f : Nat → K) (v : Nat → Nat) (z : Nat → K) (st : Nat × (Nat → K)) (q : Nat) :
    Option (Nat × (Nat → K)) :=
  match advance z q (L - (st.1 + 1)) st.1 with
  | none => none
  | some k => some (k, put st.2 q (((q : K) - v k) * ((q : K) - v k) + f (v k)))

/-- `edt1d` (font/sdf_builder.go:229-268). -/
def edt1d (L n : Nat) (b : Bufs K) : Option (Bufs K) :=
  if 1 < L then
    match (List.range' 1 (n - 1)).foldlM (buildStep L b.f) (0, put b.v 0 0, put (put b.z 0 (-INF)) 1 INF) with
    | none => none
    | some (_, v, z) =>
      match (List.range n).foldlM (scanStep L b.f v z) (0, b.d) with
      | none => none
      | some (_, d) => some ⟨b.f, d, v, z⟩
  else none

/-- One column (font/sdf_builder.go:203-213): `data[y*width+x]` is written `data x y`. -/
def colStep (L h : Nat) (st : (Nat → Nat → K) × Bufs K) (x : Nat) : Option ((Nat → Nat → K) × Bufs K) :=
  match edt1d L h { st.2 with f := fun y => if y < h then st.1 x y else st.2.f y } with
  | none => none
  | some b => some (fun x' y => if x' = x ∧ y < h then b.d y else st.1 x' y, b)

/-- One row (font/sdf_builder.go:215-225). -/
def rowStep (sqrt : K → K) (L w : Nat) (st : (Nat → Nat → K) × Bufs K) (y : Nat) :
    Option ((Nat → Nat → K) × Bufs K) :=
  match edt1d L w { st.2 with f := fun x => if x < w then st.1 x y else st.2.f x } with
  | none => none
  | some b => some (fun x y' => if y' = y ∧ x < w then sqrt (b.d x) else st.1 x y', b)

/-- `edt` (font/sdf_builder.go:202-226). -/
def edt (sqrt : K → K) (L w h : Nat) (data : Nat → Nat → K) (b : Bufs K) : Option ((Nat → Nat → K) × Bufs K) :=
  match (List.range w).foldlM (colStep L h) (data, b) with
  | none => none
  | some st => (List.range h).foldlM (rowStep sqrt L w) st

/-- the two seed values of a pixel (font/sdf_builder.go:162-175) from its 16-bit alpha -/
def outerSeed (a : Nat) : K :=
  let alpha : K := (a : K) / 65535
  if alpha ≠ 1 then (if alpha = 0 then INF else max 0 (1 / 2 - alpha) * max 0 (1 / 2 - alpha)) else 0
/-- font/sdf_builder.go:162-175. -/
def innerSeed (a : Nat) : K :=
  let alpha : K := (a : K) / 65535
  if alpha ≠ 1 then (if alpha = 0 then 0 else max 0 (alpha - 1 / 2) * max 0 (alpha - 1 / 2)) else INF

/-- The byte of a pixel (font/sdf_builder.go:190-194); the clamped value is an integer in 0..255. -/
def sdfByte (radius cutoff d : K) : Nat :=
  (max 0 (min 255 (Style.roundK (255 - 255 * (d / radius + cutoff))))).toNat

/-- `CalcSDF` (font/sdf_builder.go:145-199): the bytes as a function of `x`, `y`; `alpha x y` is the alpha of
`img.At(x, y).RGBA()`.  The work slices start zeroed. -/
def calcSDF (sqrt : K → K) (w h : Nat) (alpha : Nat → Nat → Nat) (radius cutoff : K) : Option (Nat → Nat → Nat) :=
  match edt sqrt (w * h) w h (fun x y => outerSeed (alpha x y)) ⟨fun _ => 0, fun _ => 0, fun _ => 0, fun _ => 0⟩ with
  | none => none
  | some (o, b) =>
    match edt sqrt (w * h) w h (fun x y => innerSeed (alpha x y)) b with
    | none => none
    | some (i, _) => some fun x y => sdfByte radius cutoff (o x y - i x y)

/-- the `alphas` slice, row by row (font/sdf_builder.go:185-198) -/
def sdfBytes (w h : Nat) (g : Nat → Nat → Nat) : List Nat :=
  (List.range h).flatMap fun y => (List.range w).map fun x => g x y

/-! ## Glyphs -/

/-- What `Face.Glyph` returns for a rune (golang.org/x/image/font; not modelled): bounds, advance, the point `maskp` and the mask, as its 8-bit
alpha at every point of the plane (0 outside its bounds; inside them it may show more than this glyph).
Library golang.org/x/image/font, used at font/sdf_builder.go:92-141. -/
structure Drawn where
  minX : Int
  minY : Int
  sizeX : Nat
  sizeY : Nat
  advance : Nat
  maskX : Int
  maskY : Int
  mask : Int → Int → Nat

/-- `dst` after `draw.DrawMask` (font/sdf_builder.go:135-136): black through the mask, over a transparent image, so that the alpha is the
mask's; `RGBA()` (font/sdf_builder.go:160) widens it to 16 bits. Library golang.org/x/image/draw. -/
def drawMask (buffer : Nat) (g : Drawn) (x y : Nat) : Nat := g.mask (g.maskX - buffer + x) (g.maskY - buffer + y) * 257

/-- The font: `Font.Index(x)` and `Face.Glyph` (`none`: not ok).
Library golang.org/x/image/font, used at font/sdf_builder.go:92-141. -/
structure FontFace where
  index : Int → Nat
  draw : Int → Option Drawn

/-- `Glyph` (glyph.pb.go:25-38). -/
structure Glyph where
  id : Nat
  width : Nat
  height : Nat
  left : Int
  top : Int
  advance : Nat
  bitmap : List Nat

/-- `SDFBuilder.Glyph` (font/sdf_builder.go:92-141).  Outer `none`: a panic in `CalcSDF`; `some none`: nil.
The sizes are taken to fit a `uint32`. -/
def glyph (sqrt : K → K) (buffer : Nat) (F : FontFace) (x : Int) : Option (Option Glyph) :=
  if x = 0 then some none
  else if F.index x = 0 then some none
  else match F.draw x with
    | none => some none
    | some g =>
      if g.sizeX = 0 ∨ g.sizeY = 0 then some none
      else
        match calcSDF sqrt (g.sizeX + buffer * 2) (g.sizeY + buffer * 2) (drawMask buffer g) 8 (1 / 4) with
        | none => none
        | some px => some (some ⟨(x % 4294967296).toNat, g.sizeX, g.sizeY, g.minX, -g.minY, g.advance,
            sdfBytes (g.sizeX + buffer * 2) (g.sizeY + buffer * 2) px⟩)

/-- `rune(i)`: int32. Go language, at font/sdf_builder.go:79. -/
def rune (i : Int) : Int := (i + 2147483648) % 4294967296 - 2147483648

/-- The loop of `Glyphs` (font/sdf_builder.go:78-83) over `min, min+1, …, max-1`. -/
def glyphLoop (sqrt : K → K) (buffer : Nat) (F : FontFace) : List Int → Option (List Glyph)
  | [] => some []
  | i :: is =>
    match glyph sqrt buffer F (rune i) with
    | none => none
    | some g =>
      match glyphLoop sqrt buffer F is with
      | none => none
      | some gs => some (g.toList ++ gs)

/-- `SDFBuilder.Glyphs` (font/sdf_builder.go:70-90): the glyphs of the one stack. -/
def glyphs (sqrt : K → K) (buffer : Nat) (F : FontFace) (min max : Int) : Option (List Glyph) :=
  glyphLoop sqrt buffer F ((List.range (max - min).toNat).map fun (k : Nat) => min + k)

/-! ## DrawGlyph -/

/-- `alpha` (font/utils.go:39-42) in exact arithmetic; the converted value lies in `[0, 255]`, where `uint8` truncates. -/
def smooth (e0 e1 x : K) : Nat :=
  let a := max (min ((x - e1) / (e1 - e0)) 1) 0
  ⌊(a * a * (3 - 2 * a)) * x⌋.toNat

/-- `DrawGlyph` (font/utils.go:12-37): the alphas of the image in row order; `none`: `glyph.Bitmap[i]` out of range.
`*glyph.Width + 6` is taken not to wrap. -/
def drawGlyph (K : Type) [Field K] [LinearOrder K] [IsStrictOrderedRing K] [FloorRing K] (g : Glyph) (smoothstep : Bool) :
    Option (List Nat) :=
  (List.range ((g.height + 6) * (g.width + 6))).mapM fun i =>
    (g.bitmap[i]?).map fun (a : Nat) => if smoothstep then smooth (136 : K) 168 (a : K) else a

end Verif.Font
