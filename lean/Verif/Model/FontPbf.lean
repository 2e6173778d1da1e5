import Verif.Model.Pbf
import Verif.Model.Font
import Verif.Model.GoBase

/-!
# Model of the glyph messages of font/glyph.pb.go

Glyph files are written and read with `proto.Marshal` and `proto.Unmarshal` of github.com/golang/protobuf v1.5.2 (go.mod), which work from the
struct tags of glyph.pb.go: field number, wire encoding, `req`/`opt`/`rep`. The library's algorithm is modelled here for these three messages;
its two kinds of errors are kept apart. Not modelled: groups (wire types 3 and 4, which no proto2 writer of these messages writes) are an error,
nil elements of a repeated field, and registered extensions (there are none, so fields 16 to 8191 of `Glyphs` are unknown fields).
-/
namespace Verif.FontPbf
open Verif.Pbf

/-- `protowire.ConsumeVarint` (google.golang.org/protobuf), used by `Unmarshal`, font/glyph.pb.go:47-49: at most ten bytes, the tenth below 2;
the value and its length. -/
def varintLoop : Nat → Bytes → Option (Nat × Nat)
  | 0, _ => none
  | _, [] => none
  | 1, b :: _ => if b < 2 then some (b, 1) else none
  | n + 2, b :: bs => if b < 128 then some (b, 1) else (varintLoop (n + 1) bs).map fun r => (b % 128 + 128 * r.1, r.2 + 1)

/-- As `varintLoop`, on a whole input (font/glyph.pb.go:47-49). -/
def consumeVarint (b : Bytes) : Option (Nat × Nat) := varintLoop 10 b

/-- The value of a field on the wire: wire types 0, 1, 2 and 5 (font/glyph.pb.go:47-49). -/
inductive Payload where
  | varint (v : Nat)
  | fixed64 (s : Bytes)
  | bytes (s : Bytes)
  | fixed32 (s : Bytes)
deriving DecidableEq, Repr

/-- The wire type (font/glyph.pb.go:47-49). -/
def Payload.wire : Payload → Nat
  | .varint _ => 0
  | .fixed64 _ => 1
  | .bytes _ => 2
  | .fixed32 _ => 5

/-- `protowire.ConsumeFieldValue`: the value of a field of wire type `w` at the start of `b`, and its length (font/glyph.pb.go:47-49). -/
def consumeValue (w : Nat) (b : Bytes) : Option (Payload × Nat) :=
  if w = 0 then (consumeVarint b).map fun r => (.varint r.1, r.2)
  else if w = 1 then (if 8 ≤ b.length then some (.fixed64 (b.take 8), 8) else none)
  else if w = 2 then (consumeVarint b).bind fun r =>
    if r.2 + r.1 ≤ b.length then some (.bytes ((b.drop r.2).take r.1), r.2 + r.1) else none
  else if w = 5 then (if 4 ≤ b.length then some (.fixed32 (b.take 4), 4) else none)
  else none

/-- A field as met in the input: number, value, and the bytes of the value (font/glyph.pb.go:47-49). -/
structure RawField where
  num : Nat
  val : Payload
  raw : Bytes
deriving DecidableEq, Repr

/-- The loop of the library's `unmarshalPointer`, which cuts the input into fields: field numbers from 1 to 2^29-1 (font/glyph.pb.go:47-49).
`n` bounds the number of turns; every turn uses at least one byte. -/
def fieldLoop : Nat → Bytes → Option (List RawField)
  | _, [] => some []
  | 0, _ :: _ => none
  | n + 1, b :: bs =>
    (consumeVarint (b :: bs)).bind fun t =>
      if t.1 / 8 < 1 ∨ t.1 / 8 > 536870911 then none
      else (consumeValue (t.1 % 8) ((b :: bs).drop t.2)).bind fun v =>
        (fieldLoop n (((b :: bs).drop t.2).drop v.2)).map fun l => ⟨t.1 / 8, v.1, ((b :: bs).drop t.2).take v.2⟩ :: l

/-- All fields of an input (font/glyph.pb.go:47-49). -/
def fields (b : Bytes) : Option (List RawField) := fieldLoop b.length b

/-- `protowire.AppendTag` (font/glyph.pb.go:50-52). -/
def tagOf (num wire : Nat) : Bytes := encVarint (num * 8 + wire)

/-- How an unknown field is kept: its tag, written anew, and the bytes of its value (font/glyph.pb.go:47-49, XXX_unrecognized). -/
def RawField.keep (f : RawField) : Bytes := tagOf f.num f.val.wire ++ f.raw

/-- `EncodeZigZag` of an int32 (`zigzag32` in the tags at font/glyph.pb.go:32-33). -/
def zig (v : Int) : Nat := if 0 ≤ v then (2 * v).toNat else (-2 * v - 1).toNat

/-- `int32(DecodeZigZag(x & MaxUint32))` (font/glyph.pb.go:32-33). -/
def unzig (x : Nat) : Int := if (x % 4294967296) % 2 = 0 then ((x % 4294967296 / 2 : Nat) : Int) else -((x % 4294967296 / 2 : Nat) : Int) - 1

/-- `Glyph` (font/glyph.pb.go:25-38); a nil pointer or slice is `none`. -/
structure PGlyph where
  id : Option Nat := none
  bitmap : Option Bytes := none
  width : Option Nat := none
  height : Option Nat := none
  left : Option Int := none
  top : Option Int := none
  advance : Option Nat := none
  unknown : Bytes := []
deriving DecidableEq, Repr

/-- `Fontstack` (font/glyph.pb.go:115-122). -/
structure PStack where
  name : Option Bytes := none
  range : Option Bytes := none
  glyphs : List PGlyph := []
  unknown : Bytes := []
deriving DecidableEq, Repr

/-- `Glyphs` (font/glyph.pb.go:170-176). -/
structure PGlyphs where
  stackList : List PStack := []
  unknown : Bytes := []
deriving DecidableEq, Repr

/-- `GetId`, `GetWidth`, `GetHeight`, `GetAdvance` (font/glyph.pb.go:65-70, 79-91, 107-112): 0 for a nil pointer. -/
def getNat (x : Option Nat) : Nat := x.getD 0

/-- `GetLeft`, `GetTop` (font/glyph.pb.go:93-105). -/
def getInt (x : Option Int) : Int := x.getD 0

/-- A field read into a glyph: the tags at font/glyph.pb.go:26-34. A field with the wrong wire type is an unknown field. -/
def glyphField (g : PGlyph) (f : RawField) : PGlyph :=
  match f.num, f.val with
  | 1, .varint v => { g with id := some (v % 4294967296) }
  | 2, .bytes s => { g with bitmap := some s }
  | 3, .varint v => { g with width := some (v % 4294967296) }
  | 4, .varint v => { g with height := some (v % 4294967296) }
  | 5, .varint v => { g with left := some (unzig v) }
  | 6, .varint v => { g with top := some (unzig v) }
  | 7, .varint v => { g with advance := some (v % 4294967296) }
  | _, _ => { g with unknown := g.unknown ++ f.keep }

/-- A `Glyph` message (font/glyph.pb.go:47-49), required fields not checked yet. -/
def decGlyph (b : Bytes) : Option PGlyph := (fields b).map fun l => l.foldl glyphField {}

/-- A field read into a stack: the tags at font/glyph.pb.go:116-118; a message field is appended to the list. -/
def stackField (s : PStack) (f : RawField) : Option PStack :=
  match f.num, f.val with
  | 1, .bytes v => some { s with name := some v }
  | 2, .bytes v => some { s with range := some v }
  | 3, .bytes v => (decGlyph v).map fun g => { s with glyphs := s.glyphs ++ [g] }
  | _, _ => some { s with unknown := s.unknown ++ f.keep }

/-- A `Fontstack` message (font/glyph.pb.go:131-133). -/
def decStack (b : Bytes) : Option PStack := (fields b).bind fun l => l.foldlM stackField {}

/-- A field read into `Glyphs`: the tag at font/glyph.pb.go:171. -/
def glyphsField (s : PGlyphs) (f : RawField) : Option PGlyphs :=
  match f.num, f.val with
  | 1, .bytes v => (decStack v).map fun t => { s with stackList := s.stackList ++ [t] }
  | _, _ => some { s with unknown := s.unknown ++ f.keep }

/-- A `Glyphs` message (font/glyph.pb.go:193-195). -/
def decGlyphs (b : Bytes) : Option PGlyphs := (fields b).bind fun l => l.foldlM glyphsField {}

/-- The `req` fields of a glyph are set (font/glyph.pb.go:26-34). -/
def PGlyph.ready (g : PGlyph) : Bool :=
  g.id.isSome && g.width.isSome && g.height.isSome && g.left.isSome && g.top.isSome && g.advance.isSome

/-- The `req` fields of a stack and of its glyphs are set (font/glyph.pb.go:116-118). -/
def PStack.ready (s : PStack) : Bool := s.name.isSome && s.range.isSome && s.glyphs.all PGlyph.ready

/-- All `req` fields are set (font/glyph.pb.go:171). -/
def PGlyphs.ready (g : PGlyphs) : Bool := g.stackList.all PStack.ready

/-- The library's errors: malformed input, or a required field not set (in which case the partial result is returned with it). -/
inductive Err (α : Type) where
  | malformed
  | required (partly : α)
deriving DecidableEq, Repr

/-- `proto.Unmarshal` into a `Glyphs` (font/glyph.pb.go:193-195). -/
def unmarshal (b : Bytes) : Except (Err PGlyphs) PGlyphs :=
  match decGlyphs b with
  | none => .error .malformed
  | some g => if g.ready then .ok g else .error (.required g)

/-- A scalar field if it is set (font/glyph.pb.go:50-52). -/
def putNat (num : Nat) (x : Option Nat) : Bytes := match x with | some v => tagOf num 0 ++ encVarint v | none => []

/-- A bytes, string or message field (font/glyph.pb.go:50-52). -/
def putBytes (num : Nat) (s : Bytes) : Bytes := tagOf num 2 ++ encVarint s.length ++ s

/-- An optional bytes or string field (font/glyph.pb.go:50-52): nil is not written, empty is. -/
def putBytes? (num : Nat) (x : Option Bytes) : Bytes := match x with | some s => putBytes num s | none => []

/-- `Marshal` of a glyph (font/glyph.pb.go:50-52): fields in the order of their numbers, then the unknown fields. -/
def encGlyph (g : PGlyph) : Bytes :=
  putNat 1 g.id ++ putBytes? 2 g.bitmap ++ putNat 3 g.width ++ putNat 4 g.height ++ putNat 5 (g.left.map zig) ++ putNat 6 (g.top.map zig) ++
    putNat 7 g.advance ++ g.unknown

/-- `Marshal` of a stack (font/glyph.pb.go:134-136). -/
def encStack (s : PStack) : Bytes :=
  putBytes? 1 s.name ++ putBytes? 2 s.range ++ s.glyphs.flatMap (fun g => putBytes 3 (encGlyph g)) ++ s.unknown

/-- `Marshal` of a file (font/glyph.pb.go:196-198). -/
def encGlyphs (g : PGlyphs) : Bytes := g.stackList.flatMap (fun s => putBytes 1 (encStack s)) ++ g.unknown

/-- `proto.Marshal` of a `Glyphs` (font/glyph.pb.go:196-198). -/
def marshal (g : PGlyphs) : Except (Err Bytes) Bytes := if g.ready then .ok (encGlyphs g) else .error (.required (encGlyphs g))

/-- The message for a glyph of the builder (font/sdf_builder.go:124-139): every pointer set. -/
def ofGlyph (g : Font.Glyph) : PGlyph := ⟨some g.id, some g.bitmap, some g.width, some g.height, some g.left, some g.top, some g.advance, []⟩

/-- `fmt.Sprintf("%d-%d", min, max)` (font/sdf_builder.go:71), as bytes. -/
def rangeLabel (min max : Int) : Bytes := (Go.itoa min ++ '-' :: Go.itoa max).map Char.toNat

/-- The message `SDFBuilder.Glyphs` returns (font/sdf_builder.go:70-90), for the font's name. -/
def ofGlyphs (name : Bytes) (min max : Int) (gs : List Font.Glyph) : PGlyphs := ⟨[⟨some name, some (rangeLabel min max), gs.map ofGlyph, []⟩], []⟩

end Verif.FontPbf
