import Verif.Model.TileGeo
import Mathlib.Data.List.Dedup

/-!
# Model of tile_cover/tile_cover.go and tile_cover/line_corner_case.go

Exact arithmetic (ℝ) as in `Verif.Model.TileGeo`.  A point is a pair: of the slices only `pt[0]` and `pt[1]` are
read.  `none` is a panic (index out of range).
-/
namespace Verif.Cover
open Verif.Tid

/-- tile_cover/tile_cover.go:38-75 ([]float64 of length two). -/
abbrev Pt := ℝ × ℝ

/-- `Extrema` as the bounding box computation gives it (tileid/tileid.go:11-16) -/
abbrev Box := Extrema

/-! ## BoundingBoxPoints -/

/-- One turn of the loop (tile_cover/tile_cover.go:116-129). -/
noncomputable def boxStep (b : Box) (p : Pt) : Box :=
  let b1 := if p.1 < b.W then { b with W := p.1 } else if p.1 > b.E then { b with E := p.1 } else b
  if p.2 < b.S then { b1 with S := p.2 } else if p.2 > b.N then { b1 with N := p.2 } else b1

/-- `BoundingBoxPoints` (tile_cover/tile_cover.go:113-131). -/
noncomputable def boundingBoxPoints (pts : List Pt) : Box :=
  pts.foldl boxStep { W := 180, S := 90, E := -180, N := -90 }

/-! ## Pip -/

/-- Does the edge from `curr` to `next` count (tile_cover/tile_cover.go:52-70)? -/
noncomputable def crosses (p curr next : Pt) : Bool :=
  let bt := if curr.2 ≥ next.2 then (next, curr) else (curr, next)
  if p.2 < bt.1.2 ∨ p.2 ≥ bt.2.2 then false
  else if p.1 ≥ max curr.1 next.1 ∨ next.2 = curr.2 then false
  else
    let xint := (p.2 - curr.2) * (next.1 - curr.1) / (next.2 - curr.2) + curr.1
    if curr.1 ≠ next.1 ∧ p.1 ≥ xint then false else true

/-- The vertices `c[0], c[1], …` with their successors, the last followed by `first` (tile_cover/tile_cover.go:44-50). -/
noncomputable def countFrom (p first : Pt) : List Pt → Nat
  | [] => 0
  | [a] => (crosses p a first).toNat
  | a :: b :: rest => (crosses p a b).toNat + countFrom p first (b :: rest)

/-- One ring of `Pip` (tile_cover/tile_cover.go:41-71): closed when the first and last longitudes differ, then the crossings are
counted.  For the memory see Model/TileCoverAlias. -/
noncomputable def ringCount (p : Pt) : List Pt → Option Nat
  | [] => none
  | a :: rest =>
    let c := a :: rest
    let c := if a.1 ≠ (c.getLast (by simp [c])).1 then c ++ [a] else c
    some (countFrom p a c)

/-- The sum over the rings (tile_cover/tile_cover.go:39-72). -/
noncomputable def pipCount (p : Pt) : List (List Pt) → Option Nat
  | [] => some 0
  | c :: cs =>
    match ringCount p c with
    | none => none
    | some n => (pipCount p cs).map (n + ·)

/-- `Pip` (tile_cover/tile_cover.go:38-75). -/
noncomputable def pip (rings : List (List Pt)) (p : Pt) : Option Bool :=
  (pipCount p rings).map fun n => n % 2 != 0

/-! ## GetTilesPolygon -/

/-- `RunPolygon` (tile_cover/tile_cover.go:11-21). -/
noncomputable def runPolygon (rings : List (List Pt)) (t : TileID) : Bool :=
  rings.any fun cont => cont.any fun pt =>
    let u := tile pt.1 pt.2 t.Z
    decide (u.X = t.X) && decide (u.Y = t.Y)

/-- `TilePolygon` (tile_cover/tile_cover.go:23-36), with Go's left-to-right `||`. -/
noncomputable def tilePolygon (rings : List (List Pt)) (pb : Box) (t : TileID) : Option Bool :=
  let b := bounds t
  if pb.N < b.N ∧ pb.S > b.S ∧ pb.E < b.E ∧ pb.W > b.W then some true
  else
    match pip rings (b.W, b.N) with
    | none => none
    | some true => some true
    | some false =>
    match pip rings (b.W, b.S) with
    | none => none
    | some true => some true
    | some false =>
    match pip rings (b.E, b.N) with
    | none => none
    | some true => some true
    | some false =>
    match pip rings (b.E, b.S) with
    | none => none
    | some true => some true
    | some false => some (runPolygon rings t)

/-- `GetDif` (tile_cover/tile_cover.go:133-141). -/
def getDif (x1 x2 : Int) : List Int :=
  x1 :: (List.range (x2 - x1).toNat).map fun k : Nat => x1 + 1 + k

/-- Keeping the tiles that pass (tile_cover/tile_cover.go:160-165). -/
noncomputable def keep (rings : List (List Pt)) (pb : Box) : List TileID → Option (List TileID)
  | [] => some []
  | t :: ts =>
    match tilePolygon rings pb t with
    | none => none
    | some b => (keep rings pb ts).map fun r => if b then t :: r else r

/-- `GetTilesPolygon` (tile_cover/tile_cover.go:143-168). -/
noncomputable def getTilesPolygon (rings : List (List Pt)) (zoom : Nat) : Option (List TileID) :=
  match rings with
  | [] => none
  | outer :: _ =>
    let b := boundingBoxPoints outer
    let tmin := tile b.W b.N zoom
    let tmax := tile b.E b.S zoom
    keep rings b ((getDif tmin.X tmax.X).flatMap fun x => (getDif tmin.Y tmax.Y).map fun y => ⟨x, y, zoom⟩)

/-! ## GetTilesLine -/

/-- `FillVals` (tile_cover/line_corner_case.go:26-45): the integers strictly between. -/
def fillVals (a b : Int) : List Int :=
  let lo := if a > b then b else a
  let hi := if a > b then a else b
  if lo = hi ∨ hi - 1 = lo then [] else (List.range (hi - lo - 1).toNat).map fun k : Nat => lo + 1 + k

/-- the offset `.0000001`. tile_cover/line_corner_case.go:81-82. -/
noncomputable def eps : ℝ := 1 / 10000000

/-- `ProduceVals` (tile_cover/line_corner_case.go:59-86).  The map only removes repeats, and its order does not matter since the
values are used to fill a set; here the list with repeats. -/
noncomputable def produceVals (vals : List Int) (constant : Int) (xbool : Bool) (size : Nat) : List ℝ :=
  vals.flatMap fun v =>
    let b := if xbool then bounds ⟨v, constant, size⟩ else bounds ⟨constant, v, size⟩
    let ks := if xbool then [b.W, b.E] else [b.S, b.N]
    ks.flatMap fun k => [k - eps, k + eps]

/-- `Interpolate` (tile_cover/line_corner_case.go:47-57). -/
noncomputable def interpolate (p1 p2 : Pt) (val : ℝ) (ybool : Bool) : Pt :=
  if ybool then
    (p1.1 + (val - p1.2) * ((p2.1 - p1.1) / (p2.2 - p1.2)), val)
  else
    (val, p1.2 + (val - p1.1) * ((p2.2 - p1.2) / (p2.1 - p1.1)))

open Classical in
/-- The key set of `BetweenTiles` (tile_cover/line_corner_case.go:88-120), without repeats, in one fixed order; the code returns
the keys of a map in any order (see `getTilesLine`). -/
noncomputable def betweenTiles (p1 p2 : Pt) (size : Nat) : List TileID :=
  let t1 := tile p1.1 p1.2 size
  let t2 := tile p2.1 p2.2 size
  if ¬ (t1.X = t2.X ∧ t1.Y = t2.Y) then
    let xf := produceVals (fillVals t1.X t2.X) t1.Y true size
    let yf := produceVals (fillVals t1.Y t2.Y) t1.X false size
    (t1 :: t2 :: (xf.map fun v => let q := interpolate p1 p2 v false; tile q.1 q.2 size) ++
      (yf.map fun v => let q := interpolate p1 p2 v true; tile q.1 q.2 size)).dedup
  else [t1, t2]

/-- `_, ok := tilesmap[t]; if !ok { … append … }`: the map holds exactly the tiles of the list.
tile_cover/tile_cover.go:86-108, 143-168. -/
def addTile (tiles : List TileID) (t : TileID) : List TileID := if t ∈ tiles then tiles else tiles ++ [t]

/-- One turn of the loop of `GetTilesLine` (tile_cover/tile_cover.go:86-108).  `ord` is the order in which the map of this turn is
read. -/
noncomputable def lineStep (ord : List TileID → List TileID) (dx dy : ℝ) (zoom : Nat) (old : Pt) (tiles : List TileID) (pt : Pt) :
    List TileID :=
  let tiles1 := if |pt.1 - old.1| > dx ∨ |pt.2 - old.2| > dy then (ord (betweenTiles old pt zoom)).foldl addTile tiles
    else tiles
  addTile tiles1 (tile pt.1 pt.2 zoom)

/-- The loop (tile_cover/tile_cover.go:86-108); `ord n` belongs to turn `n`. -/
noncomputable def lineLoop (ord : Nat → List TileID → List TileID) (dx dy : ℝ) (zoom : Nat) :
    Nat → Pt → List TileID → List Pt → List TileID
  | _, _, tiles, [] => tiles
  | n, old, tiles, pt :: rest => lineLoop ord dx dy zoom (n + 1) pt (lineStep (ord n) dx dy zoom old tiles pt) rest

/-- `GetTilesLine` (tile_cover/tile_cover.go:77-111). -/
noncomputable def getTilesLine (ord : Nat → List TileID → List TileID) (line : List Pt) (zoom : Nat) : Option (List TileID) :=
  match line with
  | [] => none
  | p :: rest =>
    let first := tile p.1 p.2 zoom
    let b := bounds first
    some (lineLoop ord (b.E - b.W) (b.N - b.S) zoom 0 p [first] rest)

/-! ## TileCover -/

/-- The geometry of a feature by its `Type`; `multiPoint` carries the `LineString` field, which is what the code
reads.  `other` is any other type. tile_cover/tile_cover.go:178-230. -/
inductive Geom
  | point (p : Pt)
  | lineString (l : List Pt)
  | polygon (rings : List (List Pt))
  | multiPoint (points : List Pt) (lineStringField : List Pt)
  | multiLineString (ls : List (List Pt))
  | multiPolygon (ps : List (List (List Pt)))
  | other

/-- Merging the covers of the parts (tile_cover/tile_cover.go:195-209, 212-226). -/
noncomputable def mergeParts {α : Type} (cover : Nat → α → Option (List TileID)) : Nat → List TileID → List α → Option (List TileID)
  | _, total, [] => some total
  | pos, total, a :: rest =>
    match cover pos a with
    | none => none
    | some tmp =>
      if pos = 0 then mergeParts cover (pos + 1) tmp rest
      else mergeParts cover (pos + 1) (tmp.foldl addTile total) rest

/-- `TileCover` (tile_cover/tile_cover.go:178-230); `ord i n` is the map order in turn `n` of part `i`. -/
noncomputable def tileCover (ord : Nat → Nat → List TileID → List TileID) (zoom : Nat) : Geom → Option (List TileID)
  | .point p => some [tile p.1 p.2 zoom]
  | .lineString l => getTilesLine (ord 0) l zoom
  | .polygon [] => none
  | .polygon (outer :: holes) => if outer.length > 3 then getTilesPolygon (outer :: holes) zoom else some []
  | .multiPoint _ l => getTilesLine (ord 0) l zoom
  | .multiLineString ls => mergeParts (fun i l => getTilesLine (ord i) l zoom) 0 [] ls
  | .multiPolygon ps => mergeParts (fun _ p => getTilesPolygon p zoom) 0 [] ps
  | .other => some []

end Verif.Cover
