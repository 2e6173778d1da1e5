import Verif.Model.Pbf
import Verif.Model.MvtGeom

/-!
# Model of vector tile layers: `mvt/proto.go`, `mvt/write_layer.go`, `mvt/write_feature.go`, `mvt/read_layer.go`,
`mvt/read_tile.go`, `mvt/read_feature_lazy.go`

Strings are byte lists. `Res.panic` is a Go panic and `Res.hang` means that the given number of loop iterations was not
enough; a call that hangs for every number of iterations does not return.
-/
namespace Verif.Mvt
open Verif.Go Verif.Pbf

/-- mvt/proto.go:14-46: the tag numbers of a tile scheme. -/
structure Proto where
  layers : Nat
  version : Nat
  name : Nat
  features : Nat
  keys : Nat
  values : Nat
  extent : Nat
  fID : Nat
  fTags : Nat
  fType : Nat
  fGeometry : Nat
  vString : Nat
  vFloat : Nat
  vDouble : Nat
  vInt : Nat
  vUInt : Nat
  vSInt : Nat
  vBool : Nat
  deriving DecidableEq, Repr

/-- mvt/proto.go:47-49 `MapboxProto`. -/
def mapboxProto : Proto := ⟨3, 15, 1, 2, 3, 4, 5, 1, 2, 3, 4, 1, 2, 3, 4, 5, 6, 7⟩
/-- mvt/proto.go:51-53 `LKProto`. -/
def lkProto : Proto := ⟨2, 15, 1, 2, 4, 5, 6, 1, 7, 6, 2, 1, 2, 3, 4, 5, 6, 7⟩

/-! ## Writer -/

/-- A Go value stored in a property map, as far as the writer distinguishes it. Floats are given by their bits; `int`/`uint`
carry the Go type (int, int8, … are different types and so different map keys); `other` is any hashable value of another
kind (nil, struct, pointer, …); `unhashable` is a slice, map or func. mvt/write_layer.go:91-121. -/
inductive GoVal where
  | str (s : Bytes)
  | bool (b : Bool)
  | f32 (bits : Nat)
  | f64 (bits : Nat)
  | int (kind : Nat) (v : Int)
  | uint (kind : Nat) (v : Nat)
  | other (id : Nat)
  | unhashable
  deriving DecidableEq, Repr

/-- IEEE equality of floats given by bits, with `e` exponent bits and `m` mantissa bits: NaN equals nothing, -0 equals 0.
Go language, for the map lookups at mvt/write_layer.go:140, 144. -/
def floatEq (e m x y : Nat) : Bool :=
  let isNaN := fun z => (z / 2 ^ m) % 2 ^ e = 2 ^ e - 1 ∧ z % 2 ^ m ≠ 0
  let isZero := fun z => z % 2 ^ (e + m) = 0
  decide (¬ isNaN x ∧ ¬ isNaN y ∧ (x = y ∨ (isZero x ∧ isZero y)))

/-- Equality of interface values, which map lookups use (Go specification, comparison operators).
Go language, for the map lookups at mvt/write_layer.go:140, 144. -/
def goEq : GoVal → GoVal → Bool
  | .str a, .str b => decide (a = b)
  | .bool a, .bool b => decide (a = b)
  | .f32 a, .f32 b => floatEq 8 23 a b
  | .f64 a, .f64 b => floatEq 11 52 a b
  | .int k a, .int l b => decide (k = l ∧ a = b)
  | .uint k a, .uint l b => decide (k = l ∧ a = b)
  | .other a, .other b => decide (a = b)
  | _, _ => false

/-- The part of mvt/write_layer.go:13-29 `LayerWrite` that attributes and features use. `Keys`, `Values` and `Features` are
byte strings in the code, built by appending one encoded entry at a time; here they are the lists of entries in that order
(encoded in `flush`). -/
structure LayerWrite where
  name : Bytes
  extent : Nat
  version : Nat
  keysMap : List (Bytes × Nat)
  valuesMap : List (GoVal × Nat)
  keys : List Bytes
  values : List GoVal
  features : List Bytes
  deriving Repr

/-- mvt/write_layer.go:42-48 `NewLayer` (extent and version stay 0). -/
def LayerWrite.new (name : Bytes) : LayerWrite := ⟨name, 0, 0, [], [], [], [], []⟩

/-- mvt/write_layer.go:54-80 `NewLayerConfig`. -/
def LayerWrite.newConfig (name : Bytes) (extent version : Nat) : LayerWrite :=
  ⟨name, if extent = 0 then 4096 else extent, if version = 0 then 2 else version, [], [], [], [], []⟩

/-- Lookup in a Go map with string keys. Go language, for the map lookups at mvt/write_layer.go:140, 144. -/
def lookupKey (m : List (Bytes × Nat)) (k : Bytes) : Option Nat := (m.find? (fun e => e.1 = k)).map (·.2)
/-- Lookup in a Go map with interface keys. Go language, for the map lookups at mvt/write_layer.go:140, 144. -/
def lookupVal (m : List (GoVal × Nat)) (v : GoVal) : Option Nat := (m.find? (fun e => goEq e.1 v)).map (·.2)

/-- mvt/write_layer.go:82-89 `AddKey` (only called when the key is absent, so the map assignment adds an entry). -/
def addKey (l : LayerWrite) (k : Bytes) : LayerWrite × Nat :=
  let i := l.keysMap.length % 4294967296
  ({ l with keys := l.keys ++ [k], keysMap := l.keysMap ++ [(k, i)] }, i)

/-- mvt/write_layer.go:123-134 `AddValue` (only called when the lookup failed). -/
def addValue (l : LayerWrite) (v : GoVal) : LayerWrite × Nat :=
  let i := l.valuesMap.length % 4294967296
  ({ l with values := l.values ++ [v], valuesMap := l.valuesMap ++ [(v, i)] }, i)

/-- mvt/write_layer.go:140-143: the index of a key, added if absent. -/
def keyTag (l : LayerWrite) (k : Bytes) : LayerWrite × Nat :=
  match lookupKey l.keysMap k with
  | some i => (l, i)
  | none => addKey l k

/-- mvt/write_layer.go:144-147: the index of a value, added if absent. -/
def valTag (l : LayerWrite) (v : GoVal) : LayerWrite × Nat :=
  match lookupVal l.valuesMap v with
  | some i => (l, i)
  | none => addValue l v

/-- One round of the loop in mvt/write_layer.go:139-151. `none`: panic on an unhashable value. -/
def tagPair (l : LayerWrite) (k : Bytes) (v : GoVal) : Option (LayerWrite × Nat × Nat) :=
  if v = .unhashable then none
  else some ((valTag (keyTag l k).1 v).1, (keyTag l k).2, (valTag (keyTag l k).1 v).2)

/-- mvt/write_layer.go:136-153 `GetTags`; `props` lists the map in the order it is iterated. -/
def getTags (l : LayerWrite) : List (Bytes × GoVal) → Option (LayerWrite × List Nat)
  | [] => some (l, [])
  | (k, v) :: ps =>
    (tagPair l k v).bind fun (l1, kt, vt) => (getTags l1 ps).map fun (l2, ts) => (l2, kt :: vt :: ts)

/-- mvt/write_layer.go:91-121 `WriteValue`: tag and payload. Kinds not listed are written as the empty string. -/
def writeValue (P : Proto) (nc : NumCodec) : GoVal → Nat × Bytes
  | .f32 b => (P.vFloat, nc.encF32 b)
  | .f64 b => (P.vDouble, nc.encF64 b)
  | .int _ v => (P.vInt, nc.encInt v)
  | .uint _ v => (P.vUInt, nc.encUInt v)
  | .bool b => (P.vBool, [if b then 1 else 0])
  | .str s => (P.vString, if s.length > 0 then encVarint s.length ++ s else encVarint 0)
  | .other _ => (P.vString, encVarint 0)
  | .unhashable => (P.vString, encVarint 0)

/-- The bytes `AddValue` appends: a message with one field, written with wire type Bytes whatever its kind.
mvt/write_layer.go:123-130. -/
def encValue (P : Proto) (nc : NumCodec) (v : GoVal) : Bytes :=
  encBytes P.values (tagByte (writeValue P nc v).1 2 :: (writeValue P nc v).2)

/-- The fields of a written feature. mvt/write_feature.go:11-72. -/
structure WFeature where
  id : Option Nat
  tags : List Nat
  type : Option Nat
  geometry : Option (List Nat)
  deriving DecidableEq, Repr

/-- The bytes of a feature (mvt/write_feature.go:20-66 and 79-92). -/
def encFeature (P : Proto) (f : WFeature) : Bytes :=
  (match f.id with | some i => encUInt P.fID i | none => []) ++
  (if f.tags = [] then [] else encPacked P.fTags f.tags) ++
  (match f.type with | some t => encUInt P.fType t | none => []) ++
  (match f.geometry with | some g => encPacked P.fGeometry g | none => [])

/-- mvt/write_feature.go:74-98 `AddFeatureRaw`. -/
def addFeatureRaw (P : Proto) (l : LayerWrite) (id : Int) (geomtype : Nat) (geometry : List Nat) (props : List (Bytes × GoVal)) :
    Option LayerWrite :=
  (getTags l props).map fun (l1, tags) =>
    { l1 with features := l1.features ++ [encFeature P
        ⟨if id > 0 then some (u64 id) else none, tags, if geomtype ≠ 0 then some geomtype else none,
          if geometry.length > 0 then some geometry else none⟩] }

/-- The ID of a `geom.Feature`: absent, a signed integer, an unsigned integer, or something else.
mvt/write_feature.go:11-72. -/
inductive FeatID where
  | none | int (v : Int) | uint (v : Nat) | other
  deriving DecidableEq, Repr

/-- mvt/write_feature.go:11-72 `AddFeature` for a feature with a geometry. `geomtype` and `words` are what the cursor wrote
(see MvtGeom). `none`: panic; a uint ID panics because `reflect.Value.Int` is called on it. -/
def addFeature (P : Proto) (l : LayerWrite) (id : FeatID) (geomtype : Nat) (words : List Nat) (props : List (Bytes × GoVal)) :
    Option LayerWrite :=
  let idField : Option (Option Nat) := match id with
    | .none => some none
    | .int v => some (some (u64 v))
    | .uint _ => none
    | .other => some none
  idField.bind fun i => (getTags l props).map fun (l1, tags) =>
    { l1 with features := l1.features ++ [encFeature P ⟨i, tags, some geomtype, some words⟩] }

/-- mvt/write_feature.go:11-72 `AddFeature` for a feature none of the six geometry types fits: `collection` is false if there is no geometry
(`feature.Geometry` is nil after line 17, so neither a type nor a geometry is written) and true if its type is another one, such as
GeometryCollection (type 0 is written and no geometry). `none`: panic. -/
def addFeatureBare (P : Proto) (l : LayerWrite) (id : FeatID) (collection : Bool) (props : List (Bytes × GoVal)) : Option LayerWrite :=
  let idField : Option (Option Nat) := match id with
    | .none => some none
    | .int v => some (some (u64 v))
    | .uint _ => none
    | .other => some none
  idField.bind fun i => (getTags l props).map fun (l1, tags) =>
    { l1 with features := l1.features ++ [encFeature P ⟨i, tags, if collection then some 0 else none, none⟩] }

/-- The body of a layer as mvt/write_layer.go:171-186 and 195-210 write it. -/
def layerBody (P : Proto) (nc : NumCodec) (l : LayerWrite) : Bytes :=
  (if l.name.length > 0 then encBytes P.name l.name else []) ++
  l.features.flatMap (encBytes P.features) ++ l.keys.flatMap (encBytes P.keys) ++ l.values.flatMap (encValue P nc) ++
  encUInt P.extent l.extent ++ encUInt P.version l.version

/-- mvt/write_layer.go:194-216 `Flush`, and the end of `WriteLayer` (162-192): tag, length, body. -/
def flush (P : Proto) (nc : NumCodec) (l : LayerWrite) : Bytes := encBytes P.layers (layerBody P nc l)

/-! ## Reader -/

/-- Outcome of code with loops.
Go language: loops and panics in mvt/read_layer.go:22-82, mvt/read_tile.go:21-311, mvt/read_feature_lazy.go:61-124. -/
inductive Res (α : Type) where
  | ok (a : α) | panic | hang
  deriving DecidableEq, Repr

/-- Sequencing.
Go language: loops and panics in mvt/read_layer.go:22-82, mvt/read_tile.go:21-311, mvt/read_feature_lazy.go:61-124. -/
def Res.bind {α β : Type} : Res α → (α → Res β) → Res β
  | .ok a, f => f a
  | .panic, _ => .panic
  | .hang, _ => .hang

/-- A panicking step.
Go language: loops and panics in mvt/read_layer.go:22-82, mvt/read_tile.go:21-311, mvt/read_feature_lazy.go:61-124. -/
def Res.of {α : Type} : Option α → Res α
  | some a => .ok a
  | none => .panic

/-- A Go `for cond { body }` loop run for at most `n` tests of the condition.
Go language: loops and panics in mvt/read_layer.go:22-82, mvt/read_tile.go:21-311, mvt/read_feature_lazy.go:61-124. -/
def whileR {S : Type} (cond : S → Bool) (body : S → Res S) : Nat → S → Res S
  | 0, _ => .hang
  | n + 1, s => if cond s then (body s).bind (whileR cond body n) else .ok s

/-- A decoded attribute value: the dynamic types the reader produces. mvt/read_layer.go:47-62. -/
inductive Val where
  | str (s : Bytes) | f32 (bits : Nat) | f64 (bits : Nat) | int (v : Int) | uint (v : Nat) | bool (b : Bool)
  deriving DecidableEq, Repr

/-- mvt/read_layer.go:7-20 `Layer`. -/
structure Layer where
  name : Bytes
  extent : Int
  version : Int
  keys : List Bytes
  values : List Val
  features : List Int
  startPos : Int
  endPos : Int
  deriving DecidableEq, Repr

/-- The variables of `NewLayer`: current tag and wire type, `Buf.Pos`, the layer, `tile.Layers`.
mvt/read_layer.go:22-82. -/
structure LS where
  key : Nat
  wire : Nat
  pos : Int
  layer : Layer
  names : List Bytes
  deriving DecidableEq, Repr

/-- `key, val = tile.Buf.ReadTag()` after moving to `q` with layer `l`. mvt/read_layer.go:22-82. -/
def nextTag (b : Bytes) (st : LS) (q : Int) (l : Layer) : Option LS :=
  (readTag b q).map fun (k, w, r) => { st with key := k, wire := w, pos := r, layer := l }

/-- mvt/read_layer.go:28-32. -/
def passName (P : Proto) (b : Bytes) (st : LS) : Option LS :=
  if st.key = P.name ∧ st.wire = 2 then
    (readString b st.pos).bind fun (s, q) =>
      (nextTag b st q { st.layer with name := s }).map fun st => { st with names := st.names ++ [s] }
  else some st

/-- Body of the loop mvt/read_layer.go:33-39. -/
def featBody (b : Bytes) (st : LS) : Option LS :=
  (readVarint b st.pos).bind fun (n, q) => nextTag b st (q + n) { st.layer with features := st.layer.features ++ [st.pos] }

/-- Body of the loop mvt/read_layer.go:40-43. -/
def keyBody (b : Bytes) (st : LS) : Option LS :=
  (readString b st.pos).bind fun (s, q) => nextTag b st q { st.layer with keys := st.layer.keys ++ [s] }

/-- The switch of mvt/read_layer.go:47-62: the value read for value tag `t` at `p`, if any, and the new position. -/
def readVal (P : Proto) (nc : NumCodec) (b : Bytes) (t : Nat) (p : Int) : Option (Option Val × Int) :=
  let num {α : Type} (dec : Bytes → Option (α × Nat)) (mk : α → Val) : Option (Option Val × Int) :=
    (suffix b p).bind fun s => (dec s).map fun (v, n) => (some (mk v), p + n)
  if t = P.vString then (readString b p).map fun (s, q) => (some (.str s), q)
  else if t = P.vFloat then num nc.decF32 .f32
  else if t = P.vDouble then num nc.decF64 .f64
  else if t = P.vInt then num nc.decInt .int
  else if t = P.vUInt then num nc.decUInt .uint
  else if t = P.vSInt then num nc.decUInt .uint
  else if t = P.vBool then (readUInt64 b p).map fun (v, q) => (some (.bool (v = 1)), q)
  else some (none, p)

/-- Body of the loop mvt/read_layer.go:44-64. -/
def valBody (P : Proto) (nc : NumCodec) (b : Bytes) (st : LS) : Option LS :=
  (readVarint b st.pos).bind fun (_, q) => (readTag b q).bind fun (t, _, r) =>
    (readVal P nc b t r).bind fun (v, s) => nextTag b st s { st.layer with values := st.layer.values ++ v.toList }

/-- mvt/read_layer.go:65-68. -/
def passExtent (P : Proto) (b : Bytes) (st : LS) : Option LS :=
  if st.key = P.extent ∧ st.wire = 0 then
    (readVarint b st.pos).bind fun (v, q) => nextTag b st q { st.layer with extent := v }
  else some st

/-- mvt/read_layer.go:69-72. -/
def passVersion (P : Proto) (b : Bytes) (st : LS) : Option LS :=
  if st.key = P.version ∧ st.wire = 0 then
    (readVarint b st.pos).bind fun (v, q) => nextTag b st q { st.layer with version := v }
  else some st

/-- Body of the loop mvt/read_layer.go:27-73. `anyWire = true` is the copy of this loop in `ReadTile` (mvt/read_tile.go:87-128),
where the loop over values does not test the wire type; the copy in `ReadRawTile` (mvt/read_tile.go:340-381) does. -/
def layerPass (P : Proto) (nc : NumCodec) (b : Bytes) (n : Nat) (anyWire : Bool) (st : LS) : Res LS :=
  (Res.of (passName P b st)).bind fun st =>
  (whileR (fun st => st.key = P.features ∧ st.wire = 2) (fun st => Res.of (featBody b st)) n st).bind fun st =>
  (whileR (fun st => st.key = P.keys ∧ st.wire = 2) (fun st => Res.of (keyBody b st)) n st).bind fun st =>
  (whileR (fun st => st.key = P.values ∧ (anyWire = true ∨ st.wire = 2)) (fun st => Res.of (valBody P nc b st)) n st).bind fun st =>
  (Res.of (passExtent P b st)).bind fun st => Res.of (passVersion P b st)

/-- mvt/read_layer.go:22-82 `NewLayer` at position `pos`: the layer and the names it adds to `tile.Layers`. Afterwards
`Buf.Pos` is `endpos`. -/
def newLayer (P : Proto) (nc : NumCodec) (b : Bytes) (n : Nat) (anyWire : Bool) (pos endpos : Int) : Res (Layer × List Bytes) :=
  (Res.of (readTag b pos)).bind fun (k, w, q) =>
    (whileR (fun st : LS => st.pos < endpos) (layerPass P nc b n anyWire) n
      ⟨k, w, q, ⟨[], 0, 0, [], [], [], pos, endpos⟩, []⟩).bind fun st =>
      .ok (if st.layer.extent = 0 then { st.layer with extent := 4096 } else st.layer, st.names)

/-- The state of `NewTile`: `Buf.Pos`, the layers read so far (each assigned to `LayerMap` under its name), `Layers`.
mvt/read_tile.go:21-46, mvt/read_layer.go:74-82. -/
structure TS where
  pos : Int
  layers : List Layer
  names : List Bytes
  deriving DecidableEq, Repr

/-- Body of the loop in mvt/read_tile.go:35-44. -/
def tileBody (P : Proto) (nc : NumCodec) (b : Bytes) (n : Nat) (st : TS) : Res TS :=
  (Res.of (readTag b st.pos)).bind fun (k, w, q) =>
    if k = P.layers ∧ w = 2 then
      (Res.of (readVarint b q)).bind fun (size, r) =>
        if size ≠ 0 then
          (newLayer P nc b n false r (r + size)).bind fun (l, ns) => .ok ⟨r + size, st.layers ++ [l], st.names ++ ns⟩
        else .ok { st with pos := r }
    else .ok { st with pos := q }

/-- mvt/read_tile.go:21-46 `NewTile`: a panic is turned into an error result. -/
def newTile (P : Proto) (nc : NumCodec) (b : Bytes) (n : Nat) : Res TS :=
  whileR (fun st : TS => st.pos < b.length) (tileBody P nc b n) n ⟨0, [], []⟩

/-- `tile.LayerMap[name]`: the layer assigned last under this name.
mvt/read_tile.go:21-46, mvt/read_layer.go:74-82. -/
def TS.layerMap (t : TS) (name : Bytes) : Option Layer := t.layers.reverse.find? (fun l => l.name = name)

/-- mvt/read_feature_lazy.go:13-21 `Feature`; `props` lists the assignments to the property map in order. -/
structure Feature where
  id : Int
  props : List (Bytes × Val)
  geometryPos : Int
  geomInt : Nat
  extent : Int
  deriving DecidableEq, Repr

/-- Variables of the loop in `Feature()`. mvt/read_feature_lazy.go:61-124. -/
structure FS where
  pos : Int
  feat : Feature
  deriving DecidableEq, Repr

/-- The tag loop of mvt/read_feature_lazy.go:84-100: key and value indices to key and value; out-of-range indices give "".
`none`: index panic on an odd number of tags. -/
def resolveTags (keys : List Bytes) (values : List Val) : List Nat → Option (List (Bytes × Val))
  | [] => some []
  | [_] => none
  | k :: v :: ts => (resolveTags keys values ts).map fun r => ((keys[k]?).getD [], (values[v]?).getD (.str [])) :: r

/-- Body of the loop mvt/read_feature_lazy.go:76-119. The four `if`s test the same tag. `skip` is 0 here and in `ReadTile`
(mvt/read_tile.go:152-187); in `ReadRawTile` (mvt/read_tile.go:402-437) it is 1. -/
def featLoopBody (P : Proto) (b : Bytes) (skip : Int) (l : Layer) (st : FS) : Option FS :=
  (readTag b st.pos).bind fun (k, w, p) =>
    let st := { st with pos := p }
    (if k = P.fID ∧ w = 0 then (readUInt64 b st.pos).map fun (v, q) => (⟨q, { st.feat with id := i64 v }⟩ : FS) else some st).bind fun st =>
    (if k = P.fTags ∧ w = 2 then (readPacked b st.pos).bind fun (ts, q) => (resolveTags l.keys l.values ts).map fun r =>
        (⟨q, { st.feat with props := st.feat.props ++ r }⟩ : FS) else some st).bind fun st =>
    (if k = P.fType ∧ w = 0 then (varintFirst b st.pos).map fun (v, q) => (⟨q, { st.feat with geomInt := v }⟩ : FS) else some st).bind fun st =>
    (if k = P.fGeometry ∧ w = 2 then (readVarint b st.pos).map fun (v, q) => (⟨q + v + skip, { st.feat with geometryPos := st.pos }⟩ : FS) else some st)

/-- The reading of one feature, starting from `f0`, after `Buf.Pos` was set to `p` (mvt/read_feature_lazy.go:69-121). Line 70 is
`endpos := layer.Buf.Pos + layer.Buf.ReadVarint()`; the Go specification leaves open whether `Buf.Pos` is read before or
after the call that advances it. `late` says it is read after the call, as the gc compiler does. -/
def readFeatureFrom (P : Proto) (b : Bytes) (late : Bool) (skip : Int) (n : Nat) (l : Layer) (f0 : Feature) (p : Int) : Res Feature :=
  (Res.of (readVarint b p)).bind fun (size, q) =>
    (whileR (fun st : FS => st.pos < (if late then q else p) + size) (fun st => Res.of (featLoopBody P b skip l st)) n
      ⟨q, f0⟩).bind fun st => .ok { st.feat with extent := l.extent }

/-- mvt/read_feature_lazy.go:61-124 `Feature()`: the loop starts from an empty feature (line 72). -/
def readFeature (P : Proto) (b : Bytes) (late : Bool) (n : Nat) (l : Layer) (p : Int) : Res Feature :=
  readFeatureFrom P b late 0 n l ⟨0, [], 0, 0, 0⟩ p

/-- mvt/read_feature_lazy.go:126-136 `LoadGeometryRaw` (`none`: error). -/
def loadRaw (b : Bytes) (f : Feature) : Option (List Nat) := (readPacked b f.geometryPos).map (·.1)

/-- mvt/read_feature_lazy.go:138-251 `LoadGeometry` (`none`: error). -/
def loadGeom (b : Bytes) (f : Feature) : Option Geom := (loadRaw b f).bind (loadGeometry f.geomInt)

/-- A feature as `ReadTile` and `ToGeoJSON` return it. Coordinates are those before `Project`, which both apply with the same
arguments computed from `extent` and the tile; `id = none` is a nil ID.
mvt/read_feature_lazy.go:253-296, mvt/read_tile.go:59-311. -/
structure OutFeature where
  id : Option Int
  props : List (Bytes × Val)
  geom : Geom
  extent : Int
  deriving DecidableEq, Repr

/-- mvt/read_feature_lazy.go:253-296 `ToGeoJSON` (`none`: the geometry could not be read). -/
def toGeoJSON (b : Bytes) (f : Feature) : Option OutFeature := (loadGeom b f).map fun g => ⟨some f.id, f.props, g, f.extent⟩

/-- The bytes of the property name `layer`. mvt/read_tile.go:59-311. -/
def layerKey : Bytes := [108, 97, 121, 101, 114]

/-- The variables mvt/read_tile.go:141 `feature_geometry, id, geom_type`, which live across the features of a layer. -/
structure Carry where
  geometryPos : Int
  id : Int
  geomInt : Nat
  deriving DecidableEq, Repr

/-- The loop over the features of a layer in mvt/read_tile.go:145-300 (`ReadTile`, `skip = 0`) and 395-532 (`ReadRawTile`,
`skip = 1`). The decoding of the geometry is a copy of `LoadGeometry`; if it panics the whole call fails. -/
def bulkFeatures (P : Proto) (b : Bytes) (late : Bool) (skip : Int) (n : Nat) (l : Layer) : Carry → List Int → Res (List OutFeature)
  | _, [] => .ok []
  | c, p :: ps =>
    (readFeatureFrom P b late skip n l ⟨c.id, [], c.geometryPos, c.geomInt, 0⟩ p).bind fun f =>
      (Res.of (loadGeom b f)).bind fun g =>
        (bulkFeatures P b late skip n l ⟨f.geometryPos, f.id, f.geomInt⟩ ps).bind fun os =>
          .ok (⟨if f.id ≠ 0 then some f.id else none, f.props ++ [(layerKey, l.name)].map (fun e => (e.1, Val.str e.2)), g, l.extent⟩ :: os)

/-- State of the loop in `ReadTile`. mvt/read_tile.go:59-311. -/
structure BS where
  pos : Int
  outs : List OutFeature
  deriving DecidableEq, Repr

/-- Body of the loop mvt/read_tile.go:74-305 (`anyWire = true`, `skip = 0`) and 327-538 (`anyWire = false`, `skip = 1`).
In `ReadRawTile` the variable `extent` lives across layers (line 326); here a layer without extent always gets 4096. -/
def bulkBody (P : Proto) (nc : NumCodec) (b : Bytes) (late anyWire : Bool) (skip : Int) (n : Nat) (st : BS) : Res BS :=
  (Res.of (readTag b st.pos)).bind fun (k, w, q) =>
    if k = P.layers ∧ w = 2 then
      (Res.of (readVarint b q)).bind fun (size, r) =>
        if size ≠ 0 then
          (newLayer P nc b n anyWire r (r + size)).bind fun (l, _) =>
            (bulkFeatures P b late skip n l ⟨0, 0, 0⟩ l.features).bind fun os => .ok ⟨r + size, st.outs ++ os⟩
        else .ok { st with pos := r }
    else .ok { st with pos := q }

/-- mvt/read_tile.go:59-310 `ReadTile` (`anyWire = true`, `skip = 0`), up to projection. (An empty result also comes with an
error.) -/
def readTile (P : Proto) (nc : NumCodec) (b : Bytes) (late anyWire : Bool) (skip : Int) (n : Nat) : Res (List OutFeature) :=
  (whileR (fun st : BS => st.pos < b.length) (bulkBody P nc b late anyWire skip n) n ⟨0, []⟩).bind fun st => .ok st.outs

/-- mvt/read_tile.go:48-57 `Render` with the Mapbox tag byte 26 whatever the scheme; `layers` is `LayerMap` in the order it is
iterated. (`none`: slice bounds panic.) -/
def render (b : Bytes) : List Layer → Option Bytes
  | [] => some []
  | l :: ls => if 0 ≤ l.startPos ∧ l.startPos ≤ l.endPos ∧ l.endPos ≤ b.length then
      (render b ls).map fun r =>
        let bs := (b.drop l.startPos.toNat).take (l.endPos - l.startPos).toNat
        (26 :: encVarint bs.length ++ bs) ++ r
    else none

end Verif.Mvt
