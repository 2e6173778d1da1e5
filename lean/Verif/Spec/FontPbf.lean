import Verif.Model.FontPbf

/-!
# Specification: glyph files on the wire

A file is a sequence of fields in any order, as any protobuf writer may write it (fonts.proto: message `glyphs`), and what a reader should make of it.
-/
namespace Verif.FontPbf
open Verif.Pbf

/-- A field on the wire: tag and value. -/
def wireBytes (num : Nat) : Payload → Bytes
  | .varint v => encVarint (8 * num + 0) ++ encVarint v
  | .fixed64 s => encVarint (8 * num + 1) ++ s
  | .bytes s => encVarint (8 * num + 2) ++ (encVarint s.length ++ s)
  | .fixed32 s => encVarint (8 * num + 5) ++ s

/-- Values a writer can write. -/
def Payload.Ok : Payload → Prop
  | .varint v => v < 2 ^ 64
  | .fixed64 s => s.length = 8
  | .bytes s => s.length < 2 ^ 64
  | .fixed32 s => s.length = 4

/-- Fields of a glyph. -/
inductive GField where
  | id (v : Nat)
  | bitmap (s : Bytes)
  | width (v : Nat)
  | height (v : Nat)
  | left (v : Int)
  | top (v : Int)
  | advance (v : Nat)
  | other (num : Nat) (p : Payload)

/-- The zig-zag code of protobuf's sint32. -/
def sint (v : Int) : Nat := if v < 0 then (-2 * v - 1).toNat else (2 * v).toNat

def GField.bytes : GField → Bytes
  | .id v => wireBytes 1 (.varint v)
  | .bitmap s => wireBytes 2 (.bytes s)
  | .width v => wireBytes 3 (.varint v)
  | .height v => wireBytes 4 (.varint v)
  | .left v => wireBytes 5 (.varint (sint v))
  | .top v => wireBytes 6 (.varint (sint v))
  | .advance v => wireBytes 7 (.varint v)
  | .other num p => wireBytes num p

/-- uint32 and int32 values; other fields have numbers the message does not use. -/
def GField.Ok : GField → Prop
  | .id v | .width v | .height v | .advance v => v < 2 ^ 32
  | .left v | .top v => -(2 ^ 31) ≤ v ∧ v < 2 ^ 31
  | .bitmap s => s.length < 2 ^ 64
  | .other num p => 7 < num ∧ num < 2 ^ 29 ∧ p.Ok

def GField.id? : GField → Option Nat | .id v => some v | _ => none
def GField.bitmap? : GField → Option Bytes | .bitmap v => some v | _ => none
def GField.width? : GField → Option Nat | .width v => some v | _ => none
def GField.height? : GField → Option Nat | .height v => some v | _ => none
def GField.left? : GField → Option Int | .left v => some v | _ => none
def GField.top? : GField → Option Int | .top v => some v | _ => none
def GField.advance? : GField → Option Nat | .advance v => some v | _ => none
def GField.other? : GField → Option Bytes | .other n p => some (wireBytes n p) | _ => none

/-- What a glyph's fields mean: the last of each kind counts, fields of other numbers are kept as they are. -/
def glyphOf (fs : List GField) : PGlyph where
  id := (fs.filterMap GField.id?).getLast?
  bitmap := (fs.filterMap GField.bitmap?).getLast?
  width := (fs.filterMap GField.width?).getLast?
  height := (fs.filterMap GField.height?).getLast?
  left := (fs.filterMap GField.left?).getLast?
  top := (fs.filterMap GField.top?).getLast?
  advance := (fs.filterMap GField.advance?).getLast?
  unknown := (fs.filterMap GField.other?).flatten

/-- Fields of a font stack. -/
inductive SField where
  | name (s : Bytes)
  | range (s : Bytes)
  | glyph (g : List GField)
  | other (num : Nat) (p : Payload)

def SField.bytes : SField → Bytes
  | .name s => wireBytes 1 (.bytes s)
  | .range s => wireBytes 2 (.bytes s)
  | .glyph g => wireBytes 3 (.bytes (g.flatMap GField.bytes))
  | .other num p => wireBytes num p

def SField.Ok : SField → Prop
  | .name s | .range s => s.length < 2 ^ 64
  | .glyph g => (∀ x ∈ g, x.Ok) ∧ (g.flatMap GField.bytes).length < 2 ^ 64
  | .other num p => 3 < num ∧ num < 2 ^ 29 ∧ p.Ok

def SField.name? : SField → Option Bytes | .name v => some v | _ => none
def SField.range? : SField → Option Bytes | .range v => some v | _ => none
def SField.glyph? : SField → Option PGlyph | .glyph v => some (glyphOf v) | _ => none
def SField.other? : SField → Option Bytes | .other n p => some (wireBytes n p) | _ => none

/-- What a stack's fields mean: the glyphs in the order they are written. -/
def stackOf (fs : List SField) : PStack where
  name := (fs.filterMap SField.name?).getLast?
  range := (fs.filterMap SField.range?).getLast?
  glyphs := fs.filterMap SField.glyph?
  unknown := (fs.filterMap SField.other?).flatten

/-- Fields of a file. -/
inductive TField where
  | stack (s : List SField)
  | other (num : Nat) (p : Payload)

def TField.bytes : TField → Bytes
  | .stack s => wireBytes 1 (.bytes (s.flatMap SField.bytes))
  | .other num p => wireBytes num p

def TField.Ok : TField → Prop
  | .stack s => (∀ x ∈ s, x.Ok) ∧ (s.flatMap SField.bytes).length < 2 ^ 64
  | .other num p => 1 < num ∧ num < 2 ^ 29 ∧ p.Ok

def TField.stack? : TField → Option PStack | .stack v => some (stackOf v) | _ => none
def TField.other? : TField → Option Bytes | .other n p => some (wireBytes n p) | _ => none

/-- What a file means. -/
def fileOf (fs : List TField) : PGlyphs where
  stackList := fs.filterMap TField.stack?
  unknown := (fs.filterMap TField.other?).flatten

/-! ### Values that can be written -/

/-- Bytes that are a sequence of fields, each with a number and wire type the message does not use. -/
def Unknown (known : Nat → Payload → Prop) (u : Bytes) : Prop :=
  ∃ l : List RawField, u = l.flatMap RawField.keep ∧ fields u = some l ∧ ∀ f ∈ l, ¬ known f.num f.val

def glyphKnown (num : Nat) (p : Payload) : Prop := (num ∈ [1, 3, 4, 5, 6, 7] ∧ p.wire = 0) ∨ (num = 2 ∧ p.wire = 2)
def stackKnown (num : Nat) (p : Payload) : Prop := num ∈ [1, 2, 3] ∧ p.wire = 2
def fileKnown (num : Nat) (p : Payload) : Prop := num = 1 ∧ p.wire = 2

structure PGlyph.Ok (g : PGlyph) : Prop where
  nats : ∀ x ∈ [g.id, g.width, g.height, g.advance], ∀ v ∈ x, v < 2 ^ 32
  ints : ∀ x ∈ [g.left, g.top], ∀ v ∈ x, -(2 ^ 31) ≤ v ∧ v < 2 ^ 31
  unknown : Unknown glyphKnown g.unknown

structure PStack.Ok (s : PStack) : Prop where
  glyphs : ∀ g ∈ s.glyphs, g.Ok
  unknown : Unknown stackKnown s.unknown

structure PGlyphs.Ok (g : PGlyphs) : Prop where
  stackList : ∀ s ∈ g.stackList, s.Ok
  unknown : Unknown fileKnown g.unknown

end Verif.FontPbf
