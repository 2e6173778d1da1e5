import Verif.Model.MvtLayer

/-!
# Specification: when reading a tile never ends

A layer is a run of fields. Read one field at a time: if the tag is one the reader knows, its payload is skipped and the next
tag follows; if it is not, the reader of this package neither skips it nor fails.
-/
namespace Verif.Mvt
open Verif.Go Verif.Pbf

/-- The tag and wire type of one of the six fields of a layer. `aw`: `ReadTile` accepts a value with any wire type. -/
def KnownTag (P : Proto) (aw : Bool) (k w : Nat) : Prop :=
  (k = P.name ∧ w = 2) ∨ (k = P.features ∧ w = 2) ∨ (k = P.keys ∧ w = 2) ∨ (k = P.values ∧ (aw = true ∨ w = 2)) ∨
  (k = P.extent ∧ w = 0) ∨ (k = P.version ∧ w = 0)

/-- Where the payload at `p` of a field with tag `k` ends (`none`: reading it panics). -/
def payloadEnd (P : Proto) (nc : NumCodec) (b : Bytes) (k : Nat) (p : Int) : Option Int :=
  if k = P.name ∨ k = P.keys then (readString b p).map (·.2)
  else if k = P.features then (readVarint b p).map fun (v, q) => q + v
  else if k = P.values then (readVarint b p).bind fun (_, q) => (readTag b q).bind fun (t, _, r) => (readVal P nc b t r).map (·.2)
  else (readVarint b p).map (·.2)

/-- The tag after that payload, its wire type, and the position of its payload. -/
def nextField (P : Proto) (nc : NumCodec) (b : Bytes) (k : Nat) (p : Int) : Option (Nat × Nat × Int) :=
  (payloadEnd P nc b k p).bind (readTag b)

/-- Reading fields one by one from tag `k`, `w` with payload at `p` gets to an unknown tag (or the end of the buffer) before `e`. -/
inductive Stuck (P : Proto) (nc : NumCodec) (b : Bytes) (aw : Bool) (e : Int) : Nat → Nat → Int → Prop
  | here {k w p} : p < e → ¬ KnownTag P aw k w → Stuck P nc b aw e k w p
  | next {k w p k' w' p'} : p < e → KnownTag P aw k w → nextField P nc b k p = some (k', w', p') → Stuck P nc b aw e k' w' p' → Stuck P nc b aw e k w p

/-- Reading fields one by one gets to a feature with a negative length. -/
inductive Backward (P : Proto) (nc : NumCodec) (b : Bytes) (aw : Bool) : Nat → Nat → Int → Prop
  | here {w p v q} : KnownTag P aw P.features w → readVarint b p = some (v, q) → v < 0 → Backward P nc b aw P.features w p
  | next {k w p k' w' p'} : KnownTag P aw k w → nextField P nc b k p = some (k', w', p') → Backward P nc b aw k' w' p' → Backward P nc b aw k w p

/-- There is a non-empty layer at `p` of the tile: its fields are the bytes from `r` to `e`. -/
def LayerAt (P : Proto) (b : Bytes) (p r e : Int) : Prop :=
  p < b.length ∧ ∃ q size, readTag b p = some (P.layers, 2, q) ∧ readVarint b q = some (size, r) ∧ size ≠ 0 ∧ e = r + size

/-- The loop over the layers of a tile gets to position `p`, where `read r e` says that a layer from `r` to `e` was read. -/
inductive Arrives (P : Proto) (b : Bytes) (read : Int → Int → Prop) : Int → Prop
  | start : Arrives P b read 0
  | skip {p q k w} : Arrives P b read p → p < b.length → readTag b p = some (k, w, q) → ¬ (k = P.layers ∧ w = 2) → Arrives P b read q
  | empty {p q r} : Arrives P b read p → p < b.length → readTag b p = some (P.layers, 2, q) → readVarint b q = some (0, r) → Arrives P b read r
  | layer {p r e} : Arrives P b read p → LayerAt P b p r e → read r e → Arrives P b read e

/-- Reading the fields of a feature gets from `p` to position `q`, all before `e`. -/
inductive FeatArrives (P : Proto) (b : Bytes) (skip : Int) (l : Layer) (e : Int) : FS → FS → Prop
  | start {st} : FeatArrives P b skip l e st st
  | next {st st' st''} : FeatArrives P b skip l e st st' → st'.pos < e → featLoopBody P b skip l st' = some st'' → FeatArrives P b skip l e st st''

end Verif.Mvt
