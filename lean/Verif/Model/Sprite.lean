import Verif.Model.GoBase
import Verif.Model.F64

/-!
# Model of `sprite/growing_packer.go` and `sprite/sprite.go`

Widths, heights and coordinates are Go `int`s modelled as unbounded integers (no wrap-around in the packer); the
product in the sort comparison is taken modulo 2^64 as in Go. `*Node` trees have no sharing, so a mutable tree is
modelled by an inductive type and in-place mutation by an update at a path.
-/
namespace Verif.Sprite
open Verif.Go

/-- sprite/growing_packer.go:7-16 `Node` in its role as tree node (`Key` is only used for blocks). A node with
`Used = false` has nil children; a used node has both. -/
inductive Tree where
  | leaf (x y w h : Int)
  | used (x y w h : Int) (right down : Tree)
  deriving DecidableEq, Repr

/-- sprite/growing_packer.go:7-16 `Node` in its role as a block to be placed, before placement. -/
structure Block where
  key : String
  w : Int
  h : Int
  deriving DecidableEq, Repr

/-- `root.Width`. sprite/growing_packer.go:7-16. -/
def Tree.width : Tree → Int
  | .leaf _ _ w _ => w
  | .used _ _ w _ _ _ => w
/-- `root.Height`. sprite/growing_packer.go:7-16. -/
def Tree.height : Tree → Int
  | .leaf _ _ _ h => h
  | .used _ _ _ h _ _ => h

/-- One step of a path from the root to a node. sprite/growing_packer.go:14-15 (`Right`, `Down`). -/
inductive Dir | right | down
  deriving DecidableEq, Repr

/-- sprite/growing_packer.go:50-62 `findNode`: the path of the returned node, `none` for nil. -/
def findNode : Tree → Int → Int → Option (List Dir)
  | .used _ _ _ _ r d, w, h =>
    match findNode r w h with
    | some p => some (.right :: p)
    | none => (findNode d w h).map (.down :: ·)
  | .leaf _ _ W H, w, h => if w ≤ W ∧ h ≤ H then some [] else none

/-- sprite/growing_packer.go:64-69 `splitNode` on the unused node at the end of the path: it becomes used with two
new free regions. Returns the changed tree and the node's `X`, `Y`. (The used case at `[]` is unreachable: `findNode`
only returns unused nodes.) -/
def splitNode : Tree → List Dir → Int → Int → Option (Tree × Int × Int)
  | .leaf x y W H, [], w, h =>
    some (.used x y W H (.leaf (x + w) y (W - w) h) (.leaf x (y + h) W (H - h)), x, y)
  | .used x y W H r d, .right :: p, w, h => (splitNode r p w h).map fun (r', q) => (.used x y W H r' d, q)
  | .used x y W H r d, .down :: p, w, h => (splitNode d p w h).map fun (d', q) => (.used x y W H r d', q)
  | _, _, _, _ => none

/-- `findNode` followed by `splitNode` (sprite/growing_packer.go:38-41, 101-104, 118-121). -/
def place (t : Tree) (w h : Int) : Option (Tree × Int × Int) :=
  match findNode t w h with
  | some p => splitNode t p w h
  | none => none

/-- sprite/growing_packer.go:89-105 `growDown`. -/
def growDown (root : Tree) (w h : Int) : Option (Tree × Int × Int) :=
  place (.used 0 0 root.width (root.height + h) root (.leaf 0 root.height root.width h)) w h

/-- sprite/growing_packer.go:107-122 `growRight`. -/
def growRight (root : Tree) (w h : Int) : Option (Tree × Int × Int) :=
  place (.used 0 0 (root.width + w) root.height (.leaf root.width 0 w root.height) root) w h

/-- sprite/growing_packer.go:71-87 `growNode`; `none` is the nil result. -/
def growNode (root : Tree) (w h : Int) : Option (Tree × Int × Int) :=
  let canGrowDown := w ≤ root.width
  let canGrowRight := h ≤ root.height
  let shouldGrowRight := canGrowRight ∧ root.height ≥ root.width + w
  let shouldGrowDown := canGrowDown ∧ root.width ≥ root.height + h
  if shouldGrowRight then growRight root w h
  else if shouldGrowDown then growDown root w h
  else if canGrowRight then growRight root w h
  else if canGrowDown then growDown root w h
  else none

/-- One iteration of the loop of `Fit` (sprite/growing_packer.go:34-47). `none`: nil dereference panic. -/
def fitOne (root : Tree) (b : Block) : Option (Tree × Int × Int) :=
  match findNode root b.w b.h with
  | some p => splitNode root p b.w b.h
  | none => growNode root b.w b.h

/-- The loop of `Fit`: returns the final root and the blocks with their positions, in order.
sprite/growing_packer.go:33-47. -/
def fitLoop (root : Tree) : List Block → Option (Tree × List (Block × Int × Int))
  | [] => some (root, [])
  | b :: bs =>
    match fitOne root b with
    | none => none
    | some (root', q) =>
      match fitLoop root' bs with
      | none => none
      | some (root'', ps) => some (root'', (b, q) :: ps)

/-- sprite/growing_packer.go:22-48 `Fit`. -/
def fit (blocks : List Block) : Option (Tree × List (Block × Int × Int)) :=
  let (w, h) := match blocks with
    | b :: _ => (b.w, b.h)
    | [] => (0, 0)
  fitLoop (.leaf 0 0 w h) blocks

/-! ### GenerateSprite -/

/-- sprite/sprite.go:99-106 `Texture` (sizes and name; the image is a parameter of `drawAll`). -/
structure Texture where
  name : String
  width : Int
  height : Int
  pixelRatio : Int
  deriving DecidableEq, Repr

/-- sprite/sprite.go:108-114 `TextureSprite` (scaled meta data and position). -/
structure TexSprite where
  width : Int
  height : Int
  pixelRatio : Int
  x : Int
  y : Int
  origin : Texture
  deriving DecidableEq, Repr

/-- A Go map from names, as a finite function given by its updates. Go language, for sprite/sprite.go:53-68. -/
abbrev SpriteMap := String → Option TexSprite

/-- `set[k] = v`. Go language, for sprite/sprite.go:53-68. -/
def SpriteMap.put (m : SpriteMap) (k : String) (v : TexSprite) : SpriteMap := fun k' => if k' = k then some v else m k'

/-- The loop over the textures (sprite/sprite.go:20-42): the blocks in order and the set of sprites. `sc` is the size computed
by `ScaleTo(pixelRatio)` (sprite/sprite.go:128-138), a parameter because it is float64 arithmetic. -/
def collect (sc : Texture → Int × Int) (ratio : Int) : List Texture → SpriteMap → List Block × SpriteMap
  | [], set => ([], set)
  | t :: ts, set =>
    let (w, h) := sc t
    let (bs, set') := collect sc ratio ts (set.put t.name ⟨w, h, ratio, 0, 0, t⟩)
    (⟨t.name, w, h⟩ :: bs, set')

/-- sprite/sprite.go:44-46: the comparison function of `sort.Slice` (int multiplication wraps). -/
def less (a b : Block) : Prop := i64 (b.w * b.h) < i64 (a.w * a.h)

/-- What `sort.Slice(blocks, less)` guarantees about its result: some permutation in which no later element is less
than an earlier one. Go library sort, called at sprite/sprite.go:44-46. -/
def SortResult (before after : List Block) : Prop := after.Perm before ∧ after.Pairwise (fun a b => ¬ less b a)

/-- State of the loop sprite/sprite.go:53-68. -/
structure Sheet where
  set : SpriteMap
  w : Int
  h : Int

/-- One iteration of sprite/sprite.go:53-68 (`render` = renderImage). -/
def layStep (render : Bool) (s : Sheet) (p : Block × Int × Int) : Sheet :=
  let (b, x, y) := p
  let set := match s.set b.key with
    | some ts => s.set.put b.key { ts with x := x, y := y }
    | none => s.set                       -- unreachable: every block's key is in the set
  if render then
    { set := set
      w := if b.w + x > s.w then b.w + x else s.w
      h := if b.h + y > s.h then b.h + y else s.h }
  else { s with set := set }

/-- sprite/sprite.go:13-97 `GenerateSprite`, given the permutation `sorted` of the blocks that `sort.Slice` produced. `none`:
panic in the packer. Result: the set, and the size of the rendered sheet (`none` without rendering). -/
def generateSprite (sc : Texture → Int × Int) (ratio : Int) (textures : List Texture) (sorted : List Block)
    (render : Bool) : Option (SpriteMap × Option (Int × Int)) :=
  let set := (collect sc ratio textures (fun _ => none)).2
  match fit sorted with
  | none => none
  | some (_, placed) =>
    let s := placed.foldl (layStep render) ⟨set, 0, 0⟩
    some (s.set, if render then some (if s.w = 0 then 1 else s.w, if s.h = 0 then 1 else s.h) else none)

/-- sprite/sprite.go:128-138 `ScaleTo` in exact arithmetic: `int(float64(w) * (float64(ratio)/float64(own)))`, truncation
toward zero. (float64 rounding is not modelled here; theorems about the packing do not depend on it.) -/
def scaleDim (w ratio own : Int) : Int := (w * ratio).tdiv own
/-- The scaled size of a texture. sprite/sprite.go:128-138. -/
def scaleTo (ratio : Int) (t : Texture) : Int × Int := (scaleDim t.width ratio t.pixelRatio, scaleDim t.height ratio t.pixelRatio)

/-- `int(x)` of a float64: truncation toward zero. Go language, for sprite/sprite.go:134-135. -/
def truncF (q : ℚ) : Int := if 0 ≤ q then ⌊q⌋ else -⌊-q⌋

/-- sprite/sprite.go:128-138 `ScaleTo` in float64: `int(float64(w) * (float64(ratio)/float64(own)))`. A pixel ratio of 0 divides
by zero (an infinity or NaN, and a conversion the Go language leaves open): not modelled. -/
def scaleDimF (w ratio own : Int) : Int :=
  truncF (Verif.F64.rnd (Verif.F64.rnd w * Verif.F64.rnd (Verif.F64.rnd ratio / Verif.F64.rnd own)))
/-- The scaled size of a texture in float64. sprite/sprite.go:128-138. -/
def scaleToF (ratio : Int) (t : Texture) : Int × Int := (scaleDimF t.width ratio t.pixelRatio, scaleDimF t.height ratio t.pixelRatio)

/-! ### Drawing -/

/-- An image: bounds `(0,0)-(w,h)` and a pixel function. Go library image, for sprite/sprite.go:70-97. -/
structure Image where
  w : Int
  h : Int
  px : Int → Int → Nat

/-- sprite/sprite.go:90 `draw.Draw(dst, dst.Bounds(), img, image.Pt(-X,-Y), draw.Src)` (x/image/draw): every pixel of `dst`
whose source pixel `(x-X, y-Y)` lies in the bounds of `img` is replaced by it. -/
def drawAt (dst img : Image) (X Y : Int) : Image :=
  { dst with
    px := fun x y =>
      if 0 ≤ x ∧ x < dst.w ∧ 0 ≤ y ∧ y < dst.h ∧ 0 ≤ x - X ∧ x - X < img.w ∧ 0 ≤ y - Y ∧ y - Y < img.h
      then img.px (x - X) (y - Y) else dst.px x y }

/-- One iteration of the drawing loop sprite/sprite.go:81-91 (for a key of the set). -/
def drawStep (set : SpriteMap) (img : String → Image) (dst : Image) (k : String) : Image :=
  match set k with
  | some ts => drawAt dst (img k) ts.x ts.y
  | none => dst

/-- sprite/sprite.go:79-91: the drawing loop on the zeroed sheet; `order` is the order in which the map is iterated, `img` the
(scaled) image of each name. -/
def drawAll (set : SpriteMap) (img : String → Image) (order : List String) (w h : Int) : Image :=
  order.foldl (drawStep set img) ⟨w, h, fun _ _ => 0⟩

end Verif.Sprite
