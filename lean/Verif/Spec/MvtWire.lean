import Verif.Spec.MvtLayer
import Mathlib.Data.List.Forall2

/-!
# Specification: vector tiles of any writer

A tile is a sequence of layer messages; a layer message and a feature message are sequences of fields, in any order, as the
protobuf format allows. What such a message means: of a field that may occur once the last occurrence counts, repeated
fields are collected in order.
-/
namespace Verif.Mvt
open Verif.Go Verif.Pbf

/-- A field of a feature message. `tags` lists pairs of key and value indices. -/
inductive FField where
  | id (v : Nat)
  | tags (ps : List (Nat × Nat))
  | type (t : Nat)
  | geometry (ws : List Nat)
  deriving DecidableEq, Repr

/-- The numbers of a `tags` field. -/
def tagWords (ps : List (Nat × Nat)) : List Nat := ps.flatMap fun e => [e.1, e.2]

/-- Its bytes. -/
def FField.bytes (P : Proto) : FField → Bytes
  | .id v => encUInt P.fID v
  | .tags ps => encPacked P.fTags (tagWords ps)
  | .type t => encUInt P.fType t
  | .geometry ws => encPacked P.fGeometry ws

/-- Numbers in range: ids below 2^63, words below 2^32, geometry types below 128. -/
def FField.Ok : FField → Prop
  | .id v => v < 9223372036854775808
  | .tags ps => ∀ e ∈ ps, e.1 < 4294967296 ∧ e.2 < 4294967296
  | .type t => t < 128
  | .geometry ws => ∀ w ∈ ws, w < 4294967296

def FField.id? : FField → Option Nat | .id v => some v | _ => none
def FField.type? : FField → Option Nat | .type v => some v | _ => none
def FField.geometry? : FField → Option (List Nat) | .geometry v => some v | _ => none
def FField.tags? : FField → List (Nat × Nat) | .tags v => v | _ => []

/-- A field of a layer message. `value` is a value message with one field, of any wire type `wire`; `sint` one that holds a
sint_value with the given (zig-zag encoded) varint. -/
inductive LField where
  | name (s : Bytes)
  | feature (fs : List FField)
  | key (s : Bytes)
  | value (wire : Nat) (v : GoVal)
  | sint (wire : Nat) (x : Nat)
  | extent (v : Nat)
  | version (v : Nat)
  deriving DecidableEq, Repr

/-- The bytes of a feature message. -/
def featBytes (P : Proto) (fs : List FField) : Bytes := fs.flatMap (FField.bytes P)

/-- The bytes of a layer field. -/
def LField.bytes (P : Proto) (nc : NumCodec) : LField → Bytes
  | .name s => encBytes P.name s
  | .feature fs => encBytes P.features (featBytes P fs)
  | .key s => encBytes P.keys s
  | .value w v => encBytes P.values (tagByte (writeValue P nc v).1 w :: (writeValue P nc v).2)
  | .sint w x => encBytes P.values (tagByte P.vSInt w :: nc.encUInt x)
  | .extent v => encUInt P.extent v
  | .version v => encUInt P.version v

/-- Numbers in range. -/
def LField.Ok : LField → Prop
  | .feature fs => ∀ f ∈ fs, f.Ok
  | .value w v => w < 8 ∧ ValOk v
  | .sint w x => w < 8 ∧ x < 18446744073709551616
  | .extent v => v < 9223372036854775808
  | .version v => v < 9223372036854775808
  | _ => True

def LField.name? : LField → Option Bytes | .name s => some s | _ => none
def LField.feature? : LField → Option (List FField) | .feature s => some s | _ => none
def LField.key? : LField → Option Bytes | .key s => some s | _ => none
/-- The value the reader makes of it; a sint_value is taken as the unsigned number of its varint (a defect). -/
def LField.value? : LField → Option Val | .value _ v => some (stored v) | .sint _ x => some (.uint x) | _ => none
def LField.extent? : LField → Option Nat | .extent s => some s | _ => none
def LField.version? : LField → Option Nat | .version s => some s | _ => none

/-- The last of the values of an optional field, or a default. -/
def lastOr {α β : Type} (d : β) (f : α → Option β) (l : List α) : β := ((l.filterMap f).getLast?).getD d

/-- The bytes of a layer message without its length. -/
def msgBytes (P : Proto) (nc : NumCodec) (m : List LField) : Bytes := m.flatMap (LField.bytes P nc)

/-- The bytes of a tile. -/
def tileBytes (P : Proto) (nc : NumCodec) (t : List (List LField)) : Bytes := t.flatMap fun m => encBytes P.layers (msgBytes P nc m)

/-- A layer message with numbers in range, a length that fits an int, and at least one field. -/
structure MsgOk (P : Proto) (nc : NumCodec) (m : List LField) : Prop where
  ok : ∀ f ∈ m, f.Ok
  fits : (msgBytes P nc m).length < 9223372036854775808
  ne : m ≠ []

/-- The last field of the message is not a name, a feature or a key. This reader needs it of a layer that is followed by another
one: see `C66_trailing_feature_adds_garbage`. -/
def Closed (m : List LField) : Prop := ∃ f, m.getLast? = some f ∧ f.name? = none ∧ f.feature? = none ∧ f.key? = none

/-- `f`, read lazily at a position of tile `b` with layer `L`, is what the feature message `fs` says. -/
def FeatureIs (b : Bytes) (L : Layer) (fs : List FField) (f : Feature) : Prop :=
  f.id = (lastOr 0 FField.id? fs : Nat) ∧ f.geomInt = lastOr 0 FField.type? fs ∧ f.extent = L.extent ∧
  f.props = (fs.flatMap FField.tags?).map (fun e => (L.keys.getD e.1 [], L.values.getD e.2 (.str []))) ∧
  ∀ ws, (fs.filterMap FField.geometry?).getLast? = some ws → loadRaw b f = some ws

/-- Layer `L` of tile `b` is what the layer message `m` says, down to its features. -/
def LayerIs (P : Proto) (n : Nat) (b : Bytes) (m : List LField) (L : Layer) : Prop :=
  L.name = lastOr [] LField.name? m ∧
  L.extent = (if lastOr 0 LField.extent? m = 0 then 4096 else (lastOr 0 LField.extent? m : Nat)) ∧
  L.version = (lastOr 0 LField.version? m : Nat) ∧ L.keys = m.filterMap LField.key? ∧ L.values = m.filterMap LField.value? ∧
  List.Forall₂ (fun p fs => ∃ f, readFeature P b true n L p = .ok f ∧ FeatureIs b L fs f) L.features (m.filterMap LField.feature?)

/-- Each feature of a layer with the fields of all features up to and including it. -/
def withPrefixes (acc : List FField) : List (List FField) → List (List FField × List FField)
  | [] => []
  | fs :: rest => (acc ++ fs, fs) :: withPrefixes (acc ++ fs) rest

/-- In the message of a feature no field follows a geometry. -/
def GeomLast (fs : List FField) : Prop := ∀ x ∈ fs.dropLast, x.geometry? = none

/-- What `ReadTile` returns for a feature with fields `fs` of layer message `m`: properties from `fs`, but id, type and geometry from the
fields `pre` of all features up to it. -/
def BulkFeatureIs (m : List LField) (pre fs : List FField) (o : OutFeature) : Prop :=
  o.id = (if lastOr 0 FField.id? pre = 0 then none else some ((lastOr 0 FField.id? pre : Nat) : Int)) ∧
  o.props = (fs.flatMap FField.tags?).map (fun e => ((m.filterMap LField.key?).getD e.1 [], (m.filterMap LField.value?).getD e.2 (.str []))) ++
    [([108, 97, 121, 101, 114], .str (lastOr [] LField.name? m))] ∧
  o.extent = (if lastOr 0 LField.extent? m = 0 then 4096 else (lastOr 0 LField.extent? m : Nat)) ∧
  ((pre.filterMap FField.geometry?).getLast?).bind (loadGeometry (lastOr 0 FField.type? pre)) = some o.geom

end Verif.Mvt
