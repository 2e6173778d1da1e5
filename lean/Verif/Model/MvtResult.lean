import Verif.Model.MvtLayer
import Verif.Model.MvtProject

/-!
# What the calls that read a tile return when they stop early: `NewTile`, `ReadTile`, `ReadRawTile` (mvt/read_tile.go)

The model of `MvtLayer` only says that a call panics; here the `defer`/`recover` of the three functions is modelled: the state
reached before the panic, and which of it the function returns.
-/
namespace Verif.Mvt
open Verif.Go Verif.Pbf

/-- How a loop ended. Go language: loops and panics in mvt/read_tile.go:21-46, 59-311, 313-562. -/
inductive End where
  | done | panicked | hang
  deriving DecidableEq, Repr

/-- `whileR` that keeps the state before the pass that panicked. What the panicking pass changed is not seen: in mvt/read_tile.go it
is nothing that is returned, except the names that `tile.Layers` of `NewTile` got from the broken layer (`panicNames`).
Go language: loops and panics in mvt/read_tile.go:21-46, 59-311, 313-562. -/
def whileK {S : Type} (cond : S → Bool) (body : S → Res S) : Nat → S → S × End
  | 0, s => (s, .hang)
  | n + 1, s =>
    if cond s then
      match body s with
      | .ok s' => whileK cond body n s'
      | .panic => (s, .panicked)
      | .hang => (s, .hang)
    else (s, .done)

/-- What a layer at `pos` whose reading panics has appended to `tile.Layers` by then: the names of the passes that ended, and the name
of the pass that panicked if it could be read (it is the first field of a pass).
mvt/read_tile.go:36-41, mvt/read_layer.go:22-73. -/
def panicNames (P : Proto) (nc : NumCodec) (b : Bytes) (n : Nat) (pos : Int) : List Bytes :=
  ((readTag b pos).bind fun (k, w, q) =>
    if k = P.layers ∧ w = 2 then
      (readVarint b q).bind fun (size, r) => (readTag b r).map fun (k, w, q) =>
        let s := (whileK (fun st : LS => st.pos < r + size) (layerPass P nc b n false) n ⟨k, w, q, ⟨[], 0, 0, [], [], [], r, r + size⟩, []⟩).1
        s.names ++ (if s.key = P.name ∧ s.wire = 2 then ((readString b s.pos).map (·.1)).toList else [])
    else none).getD []

/-- mvt/read_tile.go:21-46 `NewTile`: the tile, with the layers read so far also after a panic, and whether there is an error.
`none`: the call does not return. -/
def newTileCall (P : Proto) (nc : NumCodec) (b : Bytes) (n : Nat) : Option (TS × Bool) :=
  match whileK (fun st : TS => st.pos < b.length) (tileBody P nc b n) n ⟨0, [], []⟩ with
  | (_, .hang) => none
  | (t, .done) => some (t, false)
  | (t, .panicked) => some ({ t with names := t.names ++ panicNames P nc b n t.pos }, true)

/-- mvt/read_tile.go:59-311 `ReadTile`: features (a named result, so those of the layers finished before a panic are returned) and
whether there is an error (lines 61-65, 307-309). Coordinates are those before projection. -/
def readTileCall (P : Proto) (nc : NumCodec) (b : Bytes) (late : Bool) (n : Nat) : Option (List OutFeature × Bool) :=
  match whileK (fun st : BS => st.pos < b.length) (bulkBody P nc b late true 0 n) n ⟨0, []⟩ with
  | (_, .hang) => none
  | (st, .done) => some (st.outs, decide (st.outs = []))
  | (st, .panicked) => some (st.outs, true)

/-- The layer loop of `ReadRawTile` (mvt/read_tile.go:338-387), where `extent` starts with the value `e0` it has from the layer
before. -/
def newLayerFrom (P : Proto) (nc : NumCodec) (b : Bytes) (n : Nat) (e0 : Int) (pos endpos : Int) : Res Layer :=
  (Res.of (readTag b pos)).bind fun (k, w, q) =>
    (whileR (fun st : LS => st.pos < endpos) (layerPass P nc b n false) n
      ⟨k, w, q, ⟨[], e0, 0, [], [], [], pos, endpos⟩, []⟩).bind fun st =>
      .ok (if st.layer.extent = 0 then { st.layer with extent := 4096 } else st.layer)

/-- State of the loop in `ReadRawTile`. mvt/read_tile.go:325-326. -/
structure RS where
  pos : Int
  outs : List OutFeature
  extent : Int

/-- Body of the loop mvt/read_tile.go:327-539. A layer of size 0 has no features; it still sets an extent of 0 to 4096 (line 390-392). -/
def rawBody (P : Proto) (nc : NumCodec) (b : Bytes) (late : Bool) (n : Nat) (st : RS) : Res RS :=
  (Res.of (readTag b st.pos)).bind fun (k, w, q) =>
    if k = P.layers ∧ w = 2 then
      (Res.of (readVarint b q)).bind fun (size, r) =>
        if size ≠ 0 then
          (newLayerFrom P nc b n st.extent r (r + size)).bind fun l =>
            (bulkFeatures P b late 1 n l ⟨0, 0, 0⟩ l.features).bind fun os => .ok ⟨r + size, st.outs ++ os, l.extent⟩
        else .ok { st with pos := r, extent := if st.extent = 0 then 4096 else st.extent }
    else .ok { st with pos := q }

/-- Result of `ReadRawTile`: the features, the two points, whether there is an error (mvt/read_tile.go:313). -/
structure RawRes where
  feats : Option (List OutFeature)
  corners : Option ((ℝ × ℝ) × (ℝ × ℝ))
  err : Bool

/-- mvt/read_tile.go:313-562 `ReadRawTile`. The results are not named: after a panic the function returns their zero values, and the
error set by the deferred function is lost (lines 314-319). Lines 541-556: the points (0, 0) and (extent, extent) as longitude and
latitude; the features keep their tile coordinates. Exact arithmetic for the points. -/
noncomputable def readRawTileCall (P : Proto) (nc : NumCodec) (b : Bytes) (late : Bool) (n : Nat) (t : Tid.TileID) : Option RawRes :=
  match whileK (fun st : RS => st.pos < b.length) (rawBody P nc b late n) n ⟨0, [], 0⟩ with
  | (_, .hang) => none
  | (_, .panicked) => some ⟨none, none, false⟩
  | (st, .done) =>
    let e : Int := if st.extent = 0 then 4096 else st.extent
    some ⟨some st.outs, some (MvtProj.toLonLat t e (0, 0), MvtProj.toLonLat t e (e, e)), decide (st.outs = [])⟩

end Verif.Mvt
