import Verif.Model.MvtLayer

/-!
# Specification of what a vector tile stores

The calls a user makes on a layer, and what they may expect to read back.
-/
namespace Verif.Mvt
open Verif.Go Verif.Pbf

/-- The value a reader sees for a written value: the same string, bool, float or integer (as int64 / uint64); any other kind
becomes the empty string. -/
def stored : GoVal → Val
  | .str s => .str s
  | .bool b => .bool b
  | .f32 x => .f32 x
  | .f64 x => .f64 x
  | .int _ v => .int v
  | .uint _ v => .uint v
  | .other _ => .str []
  | .unhashable => .str []

/-- Bits of a float zero. -/
def zero32 (x : Nat) : Prop := x % 2147483648 = 0
/-- Bits of a double zero. -/
def zero64 (x : Nat) : Prop := x % 9223372036854775808 = 0

/-- `x` is read for the property value `v`: exactly what `v` stores, or a zero of the other sign (0.0 and -0.0 are equal in
Go and so share a table entry). -/
def ReadAs (v : GoVal) (x : Val) : Prop :=
  x = stored v ∨ (∃ a b, zero32 a ∧ zero32 b ∧ v = .f32 a ∧ x = .f32 b) ∨ (∃ a b, zero64 a ∧ zero64 b ∧ v = .f64 a ∧ x = .f64 b)

/-- A call on a layer being written. -/
inductive Call where
  | tags (props : List (Bytes × GoVal))
  | addRaw (id : Int) (geomtype : Nat) (geometry : List Nat) (props : List (Bytes × GoVal))
  | add (id : FeatID) (geomtype : Nat) (words : List Nat) (props : List (Bytes × GoVal))
  | addBare (id : FeatID) (collection : Bool) (props : List (Bytes × GoVal))
  deriving Repr

/-- The properties given in a call. -/
def Call.props : Call → List (Bytes × GoVal)
  | .tags ps => ps
  | .addRaw _ _ _ ps => ps
  | .add _ _ _ ps => ps
  | .addBare _ _ ps => ps

/-- Performing a call. `none`: panic. -/
def Call.run (P : Proto) (l : LayerWrite) : Call → Option LayerWrite
  | .tags ps => (getTags l ps).map (·.1)
  | .addRaw id t g ps => addFeatureRaw P l id t g ps
  | .add id t ws ps => addFeature P l id t ws ps
  | .addBare id c ps => addFeatureBare P l id c ps

/-- Performing a history of calls, in order. -/
def runCalls (P : Proto) (l : LayerWrite) : List Call → Option LayerWrite
  | [] => some l
  | c :: cs => (c.run P l).bind fun l => runCalls P l cs

/-- Does the call add a feature? -/
def Call.isAdd : Call → Bool
  | .tags _ => false
  | _ => true

/-- The id a reader should see; 0 stands for no id. -/
def Call.expId : Call → Int
  | .tags _ => 0
  | .addRaw id _ _ _ => if id > 0 then id else 0
  | .add (.int v) _ _ _ => v
  | .add _ _ _ _ => 0
  | .addBare (.int v) _ _ => v
  | .addBare _ _ _ => 0

/-- The geometry type a reader should see. -/
def Call.expType : Call → Nat
  | .tags _ => 0
  | .addRaw _ t _ _ => t
  | .add _ t _ _ => t
  | .addBare _ _ _ => 0

/-- The geometry words a reader should see. -/
def Call.expGeom : Call → List Nat
  | .tags _ => []
  | .addRaw _ _ g _ => g
  | .add _ _ ws _ => ws
  | .addBare _ _ _ => []

/-- The call adds a feature without a geometry. -/
def Call.bare : Call → Bool
  | .addRaw _ _ g _ => g = []
  | .addBare _ _ _ => true
  | _ => false

/-- Values that exist in Go: numbers in their 64-bit (32-bit) range, strings whose length fits. -/
def ValOk : GoVal → Prop
  | .str s => s.length < 9223372036854775000
  | .f32 x => x < 4294967296
  | .f64 x => x < 18446744073709551616
  | .int _ v => IsI64 v
  | .uint _ v => v < 18446744073709551616
  | _ => True

/-- Arguments that exist in Go (ids are int64, words uint32), with a geometry type below 128. -/
def Call.Ok (c : Call) : Prop :=
  (match c with
    | .addRaw id _ _ _ => IsI64 id
    | .add (.int v) _ _ _ => IsI64 v
    | .addBare (.int v) _ _ => IsI64 v
    | _ => True) ∧
  c.expType < 128 ∧ (∀ w ∈ c.expGeom, w < 4294967296) ∧ ∀ k v, (k, v) ∈ c.props → ValOk v

end Verif.Mvt
