import Verif.Model.MvtAlias
import Verif.Model.TileCover
import Verif.Model.TileCoverFloat

/-!
# The polygon cover in the caller's memory

`Pip` closes a ring by `append`, into the caller's array if the ring has spare capacity. Here the rings are slices of a memory
(Model/MvtAlias); `Pip`, `TilePolygon`, `GetTilesPolygon` and the polygon cases of `TileCover` hand the memory on from call to call. The
arithmetic is a parameter (`Kit`), given the exact and the float64 functions below.
-/
namespace Verif.CoverH
open Verif.Alias Verif.Tid

/-- The arithmetic of the package on points `F × F` and boxes `B` (tile_cover/tile_cover.go:11-168). -/
structure Kit (F B : Type) where
  /-- does the edge count (tile_cover/tile_cover.go:52-70) -/
  crosses : F × F → F × F → F × F → Bool
  /-- the box is strictly inside the tile (tile_cover/tile_cover.go:26) -/
  inside : B → TileID → Bool
  /-- the four corners in the order of tile_cover/tile_cover.go:30-35 -/
  corners : TileID → List (F × F)
  /-- the point's tile has the tile's column and row (tile_cover/tile_cover.go:14-15) -/
  has : F × F → TileID → Bool
  /-- `BoundingBoxPoints` (tile_cover/tile_cover.go:113-131) -/
  box : List (F × F) → B
  /-- the candidates in order (tile_cover/tile_cover.go:145-158) -/
  cands : B → Nat → List TileID

variable {F B : Type}

/-- tile_cover/tile_cover.go:41-43: the first point is appended if its longitude is not the last point's. -/
def pipAct [DecidableEq F] (f l : F × F) : Act := if f.1 ≠ l.1 then .append else .keep

/-- The vertices with their successors, the last followed by `first` (tile_cover/tile_cover.go:44-50). -/
def countFrom (K : Kit F B) (p first : F × F) : List (F × F) → Nat
  | [] => 0
  | [a] => (K.crosses p a first).toNat
  | a :: b :: rest => (K.crosses p a b).toNat + countFrom K p first (b :: rest)

/-- The loop over the closed ring (tile_cover/tile_cover.go:44-71). -/
def countRing (K : Kit F B) (p : F × F) : List (F × F) → Nat
  | [] => 0
  | a :: rest => countFrom K p a (a :: rest)

/-- The loop over the rings (tile_cover/tile_cover.go:40-72); the closed ring is a local slice, the polygon keeps its own. -/
def pipCountH [DecidableEq F] (K : Kit F B) (room : Nat → Nat) (nil p : F × F) : Heap (F × F) → List Slice → Option (Heap (F × F) × Nat)
  | h, [] => some (h, 0)
  | h, s :: ss =>
    match ringH pipAct room nil h s with
    | none => none
    | some (h1, c) => (pipCountH K room nil p h1 ss).map fun x => (x.1, countRing K p (h1.read c) + x.2)

/-- `Pip` (tile_cover/tile_cover.go:38-75). -/
def pipH [DecidableEq F] (K : Kit F B) (room : Nat → Nat) (nil : F × F) (h : Heap (F × F)) (ss : List Slice) (p : F × F) :
    Option (Heap (F × F) × Bool) :=
  (pipCountH K room nil p h ss).map fun x => (x.1, x.2 % 2 != 0)

/-- `Pip(..) || Pip(..) || ...` over the corners (tile_cover/tile_cover.go:35). -/
def anyPipH [DecidableEq F] (K : Kit F B) (room : Nat → Nat) (nil : F × F) (ss : List Slice) :
    Heap (F × F) → List (F × F) → Option (Heap (F × F) × Bool)
  | h, [] => some (h, false)
  | h, p :: ps =>
    match pipH K room nil h ss p with
    | none => none
    | some (h1, true) => some (h1, true)
    | some (h1, false) => anyPipH K room nil ss h1 ps

/-- `TilePolygon` (tile_cover/tile_cover.go:23-36) with `RunPolygon` (11-21). -/
def tilePolygonH [DecidableEq F] (K : Kit F B) (room : Nat → Nat) (nil : F × F) (h : Heap (F × F)) (ss : List Slice) (pb : B)
    (t : TileID) : Option (Heap (F × F) × Bool) :=
  if K.inside pb t = true then some (h, true)
  else
    match anyPipH K room nil ss h (K.corners t) with
    | none => none
    | some (h1, true) => some (h1, true)
    | some (h1, false) => some (h1, (ss.map h1.read).any fun c => c.any fun pt => K.has pt t)

/-- Keeping the tiles that pass (tile_cover/tile_cover.go:160-165). -/
def keepH [DecidableEq F] (K : Kit F B) (room : Nat → Nat) (nil : F × F) (ss : List Slice) (pb : B) :
    Heap (F × F) → List TileID → Option (Heap (F × F) × List TileID)
  | h, [] => some (h, [])
  | h, t :: ts =>
    match tilePolygonH K room nil h ss pb t with
    | none => none
    | some (h1, b) => (keepH K room nil ss pb h1 ts).map fun x => (x.1, if b then t :: x.2 else x.2)

/-- `GetTilesPolygon` (tile_cover/tile_cover.go:143-168). -/
def getTilesPolygonH [DecidableEq F] (K : Kit F B) (room : Nat → Nat) (nil : F × F) (h : Heap (F × F)) (ss : List Slice) (zoom : Nat) :
    Option (Heap (F × F) × List TileID) :=
  match ss with
  | [] => none
  | outer :: _ => let b := K.box (h.read outer); keepH K room nil ss b h (K.cands b zoom)

/-- The loop of `TileCover` over the polygons of a multi-polygon (tile_cover/tile_cover.go:212-226). -/
def mergeH [DecidableEq F] (K : Kit F B) (room : Nat → Nat) (nil : F × F) (zoom : Nat) :
    Heap (F × F) → Nat → List TileID → List (List Slice) → Option (Heap (F × F) × List TileID)
  | h, _, total, [] => some (h, total)
  | h, pos, total, ss :: rest =>
    match getTilesPolygonH K room nil h ss zoom with
    | none => none
    | some (h1, tmp) =>
      if pos = 0 then mergeH K room nil zoom h1 (pos + 1) tmp rest
      else mergeH K room nil zoom h1 (pos + 1) (tmp.foldl Cover.addTile total) rest

/-- `TileCover` of a polygon (tile_cover/tile_cover.go:186-191). -/
def coverPolygonH [DecidableEq F] (K : Kit F B) (room : Nat → Nat) (nil : F × F) (zoom : Nat) (h : Heap (F × F)) (ss : List Slice) :
    Option (Heap (F × F) × List TileID) :=
  match ss with
  | [] => none
  | outer :: _ => if outer.len > 3 then getTilesPolygonH K room nil h ss zoom else some (h, [])

/-- `TileCover` of a multi-polygon (tile_cover/tile_cover.go:211-227). -/
def coverMultiH [DecidableEq F] (K : Kit F B) (room : Nat → Nat) (nil : F × F) (zoom : Nat) (h : Heap (F × F)) (pss : List (List Slice)) :
    Option (Heap (F × F) × List TileID) := mergeH K room nil zoom h 0 [] pss

open Classical in
/-- Exact arithmetic (Model/TileCover; tile_cover/tile_cover.go:11-168). -/
noncomputable def exactKit : Kit ℝ Cover.Box where
  crosses := Cover.crosses
  inside pb t := let b := bounds t; decide (pb.N < b.N ∧ pb.S > b.S ∧ pb.E < b.E ∧ pb.W > b.W)
  corners t := let b := bounds t; [(b.W, b.N), (b.W, b.S), (b.E, b.N), (b.E, b.S)]
  has pt t := let u := tile pt.1 pt.2 t.Z; decide (u.X = t.X) && decide (u.Y = t.Y)
  box := Cover.boundingBoxPoints
  cands b zoom :=
    let tmin := tile b.W b.N zoom
    let tmax := tile b.E b.S zoom
    (Cover.getDif tmin.X tmax.X).flatMap fun x => (Cover.getDif tmin.Y tmax.Y).map fun y => ⟨x, y, zoom⟩

/-- float64 (Model/TileCoverFloat; tile_cover/tile_cover.go:11-168). -/
def floatKit (M : Tid.Float.MathLib) : Kit ℚ CoverF.Box where
  crosses := CoverF.crosses
  inside pb t := let b := Tid.Float.bounds M t; decide (pb.N < b.N ∧ pb.S > b.S ∧ pb.E < b.E ∧ pb.W > b.W)
  corners t := let b := Tid.Float.bounds M t; [(b.W, b.N), (b.W, b.S), (b.E, b.N), (b.E, b.S)]
  has pt t := let u := Tid.Float.tile M pt.1 pt.2 t.Z; decide (u.X = t.X) && decide (u.Y = t.Y)
  box := CoverF.boundingBoxPoints
  cands b zoom :=
    let tmin := Tid.Float.tile M b.W b.N zoom
    let tmax := Tid.Float.tile M b.E b.S zoom
    (Cover.getDif tmin.X tmax.X).flatMap fun x => (Cover.getDif tmin.Y tmax.Y).map fun y => ⟨x, y, zoom⟩

end Verif.CoverH
