import Verif.Model.MvtLayer

/-!
# Model of a reading session on one tile (`mvt/read_feature_lazy.go`, `mvt/read_layer.go:84-90`)

All layers and features of a tile share one reader `Buf`, whose position every call moves. A call that panics inside the
library leaves the position anywhere; here every call leaves it at an arbitrary position given by the environment.
-/
namespace Verif.Mvt
open Verif.Go Verif.Pbf

/-- What the calls change: `Buf.Pos` and `featurePosition` of each layer.
The calls mvt/read_layer.go:84-90, mvt/read_feature_lazy.go:61-136, 138-251. -/
structure Sess where
  pos : Int
  fp : Nat → Nat

/-- Calls: on layer `i`, or on a feature returned earlier.
The calls mvt/read_layer.go:84-90, mvt/read_feature_lazy.go:61-136, 138-251. -/
inductive Op where
  | feature (i : Nat)
  | next (i : Nat)
  | reset (i : Nat)
  | raw (f : Feature)
  | load (f : Feature)

/-- Results. The calls mvt/read_layer.go:84-90, mvt/read_feature_lazy.go:61-136, 138-251. -/
inductive Out where
  | feature (r : Res Feature)
  | next (r : Bool)
  | reset
  | raw (r : Option (List Nat))
  | load (r : Option Geom)
  deriving DecidableEq

/-- Changing one layer's `featurePosition`.
The calls mvt/read_layer.go:84-90, mvt/read_feature_lazy.go:61-136, 138-251. -/
def Sess.setFp (s : Sess) (i v : Nat) : Sess := { s with fp := fun j => if j = i then v else s.fp j }

/-- One call. `layers i` is layer `i` of the tile.
* `Feature()` (mvt/read_feature_lazy.go:61-124): line 69 sets `Buf.Pos` from `features[featurePosition]` (index panic if there is
  none), the body reads from there, and `featurePosition` is increased on success (122) and on panic (65).
* `LoadGeometryRaw` (126-136) and `LoadGeometry` (138-251) set `Buf.Pos` to `GeometryPos` first.
* `Next`, `Reset` (mvt/read_layer.go:84-90). -/
def step (P : Proto) (b : Bytes) (late : Bool) (n : Nat) (layers : Nat → Layer) (s : Sess) (op : Op) (leftAt : Int) : Out × Sess :=
  match op with
  | .feature i =>
    match (layers i).features[s.fp i]? with
    | none => (.feature .panic, s.setFp i (s.fp i + 1))
    | some p =>
      let s := { s with pos := p }
      (.feature (readFeature P b late n (layers i) s.pos), { s.setFp i (s.fp i + 1) with pos := leftAt })
  | .next i => (.next (decide (s.fp i < (layers i).features.length)), s)
  | .reset i => (.reset, s.setFp i 0)
  | .raw f =>
    let s := { s with pos := f.geometryPos }
    (.raw ((readPacked b s.pos).map (·.1)), { s with pos := leftAt })
  | .load f =>
    let s := { s with pos := f.geometryPos }
    (.load (((readPacked b s.pos).map (·.1)).bind (loadGeometry f.geomInt)), { s with pos := leftAt })

/-- A schedule of calls, each with the position it leaves the buffer at.
The calls mvt/read_layer.go:84-90, mvt/read_feature_lazy.go:61-136, 138-251. -/
def runOps (P : Proto) (b : Bytes) (late : Bool) (n : Nat) (layers : Nat → Layer) : Sess → List (Op × Int) → List (Op × Out)
  | _, [] => []
  | s, (op, q) :: ops =>
    (op, (step P b late n layers s op q).1) :: runOps P b late n layers (step P b late n layers s op q).2 ops

end Verif.Mvt
