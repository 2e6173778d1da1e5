import Verif.Model.GoBase

/-!
# Assumed behaviour of the protobuf library `github.com/flywave/go-pbf`

The library is not part of /repo, so this file is an assumption, not a model of code that could be read. It is the
behaviour `mvt` relies on: single-byte tags, base-128 varints, length-prefixed byte strings, packed varints, a reader with
a public `Pos` that may be set to any int, and a `ReadTag` that returns a tag/wire pair matching nothing at the end of the
buffer without advancing. Bytes are `Nat`s below 256, positions are `Int`s; `none` is a Go panic (index or slice bounds out
of range).
-/
namespace Verif.Pbf
open Verif.Go

/-- Library go-pbf (assumed), called at mvt/write_layer.go:82-216, mvt/write_feature.go:14-71. -/
abbrev Bytes := List Nat

/-- `pbf.EncodeVarint`.
Library go-pbf (assumed), called at mvt/write_layer.go:82-216, mvt/write_feature.go:14-71. -/
def encVarint (x : Nat) : Bytes := if x < 128 then [x] else (x % 128 + 128) :: encVarint (x / 128)
  decreasing_by omega

/-- The bytes from position `p` on; `none` if `p` is not a valid position.
Library go-pbf (assumed), called at mvt/read_layer.go:22-82, mvt/read_tile.go:21-562, mvt/read_feature_lazy.go:61-136. -/
def suffix (b : Bytes) (p : Int) : Option Bytes := if 0 ≤ p ∧ p ≤ b.length then some (b.drop p.toNat) else none

/-- Decode a varint: value (not yet reduced to 64 bits) and number of bytes.
Library go-pbf (assumed), called at mvt/read_layer.go:22-82, mvt/read_tile.go:21-562, mvt/read_feature_lazy.go:61-136. -/
def decVarint : Bytes → Option (Nat × Nat)
  | [] => none
  | x :: xs => if x < 128 then some (x, 1) else (decVarint xs).map fun (v, n) => (x - 128 + 128 * v, n + 1)

/-- `Reader.ReadTag`: tag, wire type, new position.
Library go-pbf (assumed), called at mvt/read_layer.go:22-82, mvt/read_tile.go:21-562, mvt/read_feature_lazy.go:61-136. -/
def readTag (b : Bytes) (p : Int) : Option (Nat × Nat × Int) :=
  if p ≥ b.length then some (100, 100, p)
  else (suffix b p).bind fun s => s.head?.map fun x => (x / 8, x % 8, p + 1)

/-- `Reader.ReadUInt64`.
Library go-pbf (assumed), called at mvt/read_layer.go:22-82, mvt/read_tile.go:21-562, mvt/read_feature_lazy.go:61-136. -/
def readUInt64 (b : Bytes) (p : Int) : Option (Nat × Int) :=
  (suffix b p).bind fun s => (decVarint s).map fun (v, n) => (v % 18446744073709551616, p + n)

/-- `Reader.ReadVarint` (an `int`).
Library go-pbf (assumed), called at mvt/read_layer.go:22-82, mvt/read_tile.go:21-562, mvt/read_feature_lazy.go:61-136. -/
def readVarint (b : Bytes) (p : Int) : Option (Int × Int) := (readUInt64 b p).map fun (v, q) => (i64 v, q)

/-- `Reader.Varint()[0]`: the first byte of a varint, and the position after the varint.
Library go-pbf (assumed), called at mvt/read_layer.go:22-82, mvt/read_tile.go:21-562, mvt/read_feature_lazy.go:61-136. -/
def varintFirst (b : Bytes) (p : Int) : Option (Nat × Int) :=
  (suffix b p).bind fun s => (decVarint s).bind fun (_, n) => s.head?.map fun x => (x, p + n)

/-- `Reader.ReadString` / bytes: a length and that many bytes.
Library go-pbf (assumed), called at mvt/read_layer.go:22-82, mvt/read_tile.go:21-562, mvt/read_feature_lazy.go:61-136. -/
def readString (b : Bytes) (p : Int) : Option (Bytes × Int) :=
  (readVarint b p).bind fun (n, q) =>
    (suffix b q).bind fun s => if 0 ≤ n ∧ n ≤ s.length then some (s.take n.toNat, q + n) else none

/-- Loop of `Reader.ReadPackedUInt32` up to position `e`. Every pass consumes a byte, so `b.length + 1` passes suffice.
Library go-pbf (assumed), called at mvt/read_layer.go:22-82, mvt/read_tile.go:21-562, mvt/read_feature_lazy.go:61-136. -/
def packedLoop (b : Bytes) (e : Int) : Nat → Int → Option (List Nat × Int)
  | 0, _ => none
  | f + 1, p => if p < e then
      (readUInt64 b p).bind fun (v, q) => (packedLoop b e f q).map fun (l, r) => (v % 4294967296 :: l, r)
    else some ([], p)

/-- `Reader.ReadPackedUInt32`.
Library go-pbf (assumed), called at mvt/read_layer.go:22-82, mvt/read_tile.go:21-562, mvt/read_feature_lazy.go:61-136. -/
def readPacked (b : Bytes) (p : Int) : Option (List Nat × Int) :=
  (readVarint b p).bind fun (n, q) => packedLoop b (q + n) (b.length + 1) q

/-- `Writer.WriteTag` for tags up to 15: one byte.
Library go-pbf (assumed), called at mvt/write_layer.go:82-216, mvt/write_feature.go:14-71. -/
def tagByte (t w : Nat) : Nat := t * 8 + w

/-- `Writer.WriteString` and length-prefixed messages.
Library go-pbf (assumed), called at mvt/write_layer.go:82-216, mvt/write_feature.go:14-71. -/
def encBytes (t : Nat) (s : Bytes) : Bytes := tagByte t 2 :: encVarint s.length ++ s

/-- `Writer.WriteUInt64`, `Writer.WriteVarint` of a non-negative value.
Library go-pbf (assumed), called at mvt/write_layer.go:82-216, mvt/write_feature.go:14-71. -/
def encUInt (t v : Nat) : Bytes := tagByte t 0 :: encVarint v

/-- `Writer.WritePackedUInt32`.
Library go-pbf (assumed), called at mvt/write_layer.go:82-216, mvt/write_feature.go:14-71. -/
def encPacked (t : Nat) (ws : List Nat) : Bytes := encBytes t (ws.flatMap encVarint)

/-- The numeric payloads of attribute values, whose encoders (`FloatVal32`, `FloatVal64`, `EncodeVarint_Value`) and decoders
(`ReadFloat`, `ReadDouble`, `ReadInt64`, `ReadUInt64`) are in the library. Floats are given by their bits. Decoders return
the value and the number of bytes used.
Library go-pbf (assumed), called at mvt/write_layer.go:97-103 and mvt/read_layer.go:47-62. -/
structure NumCodec where
  encF32 : Nat → Bytes
  encF64 : Nat → Bytes
  encInt : Int → Bytes
  encUInt : Nat → Bytes
  decF32 : Bytes → Option (Nat × Nat)
  decF64 : Bytes → Option (Nat × Nat)
  decInt : Bytes → Option (Int × Nat)
  decUInt : Bytes → Option (Nat × Nat)

/-- What a correct library guarantees: decoders read back what encoders wrote, whatever follows.
Library go-pbf (assumed), called at mvt/write_layer.go:97-103 and mvt/read_layer.go:47-62. -/
structure NumCodec.Law (nc : NumCodec) : Prop where
  f32 : ∀ x s, x < 4294967296 → nc.decF32 (nc.encF32 x ++ s) = some (x, (nc.encF32 x).length)
  f64 : ∀ x s, x < 18446744073709551616 → nc.decF64 (nc.encF64 x ++ s) = some (x, (nc.encF64 x).length)
  int : ∀ x s, IsI64 x → nc.decInt (nc.encInt x ++ s) = some (x, (nc.encInt x).length)
  uint : ∀ x s, x < 18446744073709551616 → nc.decUInt (nc.encUInt x ++ s) = some (x, (nc.encUInt x).length)

/-- Little-endian bytes.
Library go-pbf (assumed), called at mvt/write_layer.go:97-103 and mvt/read_layer.go:47-62. -/
def le : Nat → Nat → Bytes
  | 0, _ => []
  | n + 1, x => x % 256 :: le n (x / 256)

/-- Value of little-endian bytes.
Library go-pbf (assumed), called at mvt/write_layer.go:97-103 and mvt/read_layer.go:47-62. -/
def unle : Bytes → Nat
  | [] => 0
  | x :: xs => x + 256 * unle xs

/-- The standard protobuf payloads: fixed-width little-endian floats and varints.
Library go-pbf (assumed), called at mvt/write_layer.go:97-103 and mvt/read_layer.go:47-62. -/
def NumCodec.standard : NumCodec where
  encF32 := le 4
  encF64 := le 8
  encInt := fun v => encVarint (u64 v)
  encUInt := encVarint
  decF32 := fun s => if s.length < 4 then none else some (unle (s.take 4), 4)
  decF64 := fun s => if s.length < 8 then none else some (unle (s.take 8), 8)
  decInt := fun s => (decVarint s).map fun (v, n) => (i64 v, n)
  decUInt := fun s => (decVarint s).map fun (v, n) => (v % 18446744073709551616, n)

end Verif.Pbf
