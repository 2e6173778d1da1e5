import Verif.Model.TileFloat
import Verif.Model.TileCover

/-!
# Model of tile_cover/tile_cover.go and tile_cover/line_corner_case.go in float64

As `Verif.Model.TileCover`, with every operation rounded (`F64.rnd`) and the functions of package `math` as parameters
(`Verif.Tid.Float.MathLib`).  A float64 is the rational it denotes; no NaN, infinities or subnormals.  No product is directly
added, except in `Interpolate`, where an architecture with fused multiply-add may skip one rounding; not modelled.
-/
namespace Verif.CoverF
open Verif.F64 Verif.Tid.Float
open Verif.Tid (TileID)
open Verif.Cover (getDif fillVals addTile mergeParts)

/-- tile_cover/tile_cover.go:38-75 ([]float64 of length two). -/
abbrev Pt := ℚ × ℚ

/-- `Extrema` (tileid/tileid.go:11-16) -/
abbrev Box := Verif.Tid.Float.Extrema

/-- One turn of the loop of `BoundingBoxPoints` (tile_cover/tile_cover.go:116-129). -/
def boxStep (b : Box) (p : Pt) : Box :=
  let b1 := if p.1 < b.W then { b with W := p.1 } else if p.1 > b.E then { b with E := p.1 } else b
  if p.2 < b.S then { b1 with S := p.2 } else if p.2 > b.N then { b1 with N := p.2 } else b1

/-- `BoundingBoxPoints` (tile_cover/tile_cover.go:113-131). -/
def boundingBoxPoints (pts : List Pt) : Box :=
  pts.foldl boxStep { W := 180, S := 90, E := -180, N := -90 }

/-- `xint` (tile_cover/tile_cover.go:64). -/
def xint (p curr next : Pt) : ℚ :=
  rnd (rnd (rnd (rnd (p.2 - curr.2) * rnd (next.1 - curr.1)) / rnd (next.2 - curr.2)) + curr.1)

/-- Does the edge from `curr` to `next` count (tile_cover/tile_cover.go:52-70)? -/
def crosses (p curr next : Pt) : Bool :=
  let bt := if curr.2 ≥ next.2 then (next, curr) else (curr, next)
  if p.2 < bt.1.2 ∨ p.2 ≥ bt.2.2 then false
  else if p.1 ≥ max curr.1 next.1 ∨ next.2 = curr.2 then false
  else if curr.1 ≠ next.1 ∧ p.1 ≥ xint p curr next then false else true

/-- The vertices with their successors, the last followed by `first` (tile_cover/tile_cover.go:44-50). -/
def countFrom (p first : Pt) : List Pt → Nat
  | [] => 0
  | [a] => (crosses p a first).toNat
  | a :: b :: rest => (crosses p a b).toNat + countFrom p first (b :: rest)

/-- One ring of `Pip` (tile_cover/tile_cover.go:41-71). For the memory see Model/TileCoverAlias. -/
def ringCount (p : Pt) : List Pt → Option Nat
  | [] => none
  | a :: rest =>
    let c := a :: rest
    let c := if a.1 ≠ (c.getLast (by simp [c])).1 then c ++ [a] else c
    some (countFrom p a c)

/-- The sum over the rings (tile_cover/tile_cover.go:39-72). -/
def pipCount (p : Pt) : List (List Pt) → Option Nat
  | [] => some 0
  | c :: cs =>
    match ringCount p c with
    | none => none
    | some n => (pipCount p cs).map (n + ·)

/-- `Pip` (tile_cover/tile_cover.go:38-75). -/
def pip (rings : List (List Pt)) (p : Pt) : Option Bool :=
  (pipCount p rings).map fun n => n % 2 != 0

/-- `RunPolygon` (tile_cover/tile_cover.go:11-21). -/
def runPolygon (M : MathLib) (rings : List (List Pt)) (t : TileID) : Bool :=
  rings.any fun cont => cont.any fun pt =>
    let u := tile M pt.1 pt.2 t.Z
    decide (u.X = t.X) && decide (u.Y = t.Y)

/-- `TilePolygon` (tile_cover/tile_cover.go:23-36), with Go's left-to-right `||`. -/
def tilePolygon (M : MathLib) (rings : List (List Pt)) (pb : Box) (t : TileID) : Option Bool :=
  let b := bounds M t
  if pb.N < b.N ∧ pb.S > b.S ∧ pb.E < b.E ∧ pb.W > b.W then some true
  else
    match pip rings (b.W, b.N) with
    | none => none
    | some true => some true
    | some false =>
    match pip rings (b.W, b.S) with
    | none => none
    | some true => some true
    | some false =>
    match pip rings (b.E, b.N) with
    | none => none
    | some true => some true
    | some false =>
    match pip rings (b.E, b.S) with
    | none => none
    | some true => some true
    | some false => some (runPolygon M rings t)

/-- Keeping the tiles that pass (tile_cover/tile_cover.go:160-165). -/
def keep (M : MathLib) (rings : List (List Pt)) (pb : Box) : List TileID → Option (List TileID)
  | [] => some []
  | t :: ts =>
    match tilePolygon M rings pb t with
    | none => none
    | some b => (keep M rings pb ts).map fun r => if b then t :: r else r

/-- `GetTilesPolygon` (tile_cover/tile_cover.go:143-168). -/
def getTilesPolygon (M : MathLib) (rings : List (List Pt)) (zoom : Nat) : Option (List TileID) :=
  match rings with
  | [] => none
  | outer :: _ =>
    let b := boundingBoxPoints outer
    let tmin := tile M b.W b.N zoom
    let tmax := tile M b.E b.S zoom
    keep M rings b ((getDif tmin.X tmax.X).flatMap fun x => (getDif tmin.Y tmax.Y).map fun y => ⟨x, y, zoom⟩)

/-- the constant `.0000001` as a float64. tile_cover/line_corner_case.go:81-82. -/
def eps7 : ℚ := rnd (1 / 10000000)

/-- `ProduceVals` (tile_cover/line_corner_case.go:59-86); the list with repeats, as in the exact model. -/
def produceVals (M : MathLib) (vals : List Int) (constant : Int) (xbool : Bool) (size : Nat) : List ℚ :=
  vals.flatMap fun v =>
    let b := if xbool then bounds M ⟨v, constant, size⟩ else bounds M ⟨constant, v, size⟩
    let ks := if xbool then [b.W, b.E] else [b.S, b.N]
    ks.flatMap fun k => [rnd (k - eps7), rnd (k + eps7)]

/-- `Interpolate` (tile_cover/line_corner_case.go:47-57). -/
def interpolate (p1 p2 : Pt) (val : ℚ) (ybool : Bool) : Pt :=
  if ybool then
    (rnd (p1.1 + rnd (rnd (val - p1.2) * rnd (rnd (p2.1 - p1.1) / rnd (p2.2 - p1.2)))), val)
  else
    (val, rnd (p1.2 + rnd (rnd (val - p1.1) * rnd (rnd (p2.2 - p1.2) / rnd (p2.1 - p1.1)))))

/-- The key set of `BetweenTiles` (tile_cover/line_corner_case.go:88-120), without repeats, in one fixed order; the code returns
the keys of a map in any order (see `getTilesLine`). -/
def betweenTiles (M : MathLib) (p1 p2 : Pt) (size : Nat) : List TileID :=
  let t1 := tile M p1.1 p1.2 size
  let t2 := tile M p2.1 p2.2 size
  if ¬ (t1.X = t2.X ∧ t1.Y = t2.Y) then
    let xf := produceVals M (fillVals t1.X t2.X) t1.Y true size
    let yf := produceVals M (fillVals t1.Y t2.Y) t1.X false size
    (t1 :: t2 :: (xf.map fun v => let q := interpolate p1 p2 v false; tile M q.1 q.2 size) ++
      (yf.map fun v => let q := interpolate p1 p2 v true; tile M q.1 q.2 size)).dedup
  else [t1, t2]

/-- One turn of the loop of `GetTilesLine` (tile_cover/tile_cover.go:86-108).  `ord` is the order in which the map of this turn is
read. -/
def lineStep (M : MathLib) (ord : List TileID → List TileID) (dx dy : ℚ) (zoom : Nat) (old : Pt) (tiles : List TileID) (pt : Pt) :
    List TileID :=
  let tiles1 := if |rnd (pt.1 - old.1)| > dx ∨ |rnd (pt.2 - old.2)| > dy then
      (ord (betweenTiles M old pt zoom)).foldl addTile tiles
    else tiles
  addTile tiles1 (tile M pt.1 pt.2 zoom)

/-- The loop (tile_cover/tile_cover.go:86-108); `ord n` belongs to turn `n`. -/
def lineLoop (M : MathLib) (ord : Nat → List TileID → List TileID) (dx dy : ℚ) (zoom : Nat) :
    Nat → Pt → List TileID → List Pt → List TileID
  | _, _, tiles, [] => tiles
  | n, old, tiles, pt :: rest => lineLoop M ord dx dy zoom (n + 1) pt (lineStep M (ord n) dx dy zoom old tiles pt) rest

/-- `GetTilesLine` (tile_cover/tile_cover.go:77-111). -/
def getTilesLine (M : MathLib) (ord : Nat → List TileID → List TileID) (line : List Pt) (zoom : Nat) : Option (List TileID) :=
  match line with
  | [] => none
  | p :: rest =>
    let first := tile M p.1 p.2 zoom
    let b := bounds M first
    some (lineLoop M ord (rnd (b.E - b.W)) (rnd (b.N - b.S)) zoom 0 p [first] rest)

/-- The geometry of a feature by its `Type`, as `Verif.Cover.Geom`. tile_cover/tile_cover.go:178-230. -/
inductive Geom
  | point (p : Pt)
  | lineString (l : List Pt)
  | polygon (rings : List (List Pt))
  | multiPoint (points : List Pt) (lineStringField : List Pt)
  | multiLineString (ls : List (List Pt))
  | multiPolygon (ps : List (List (List Pt)))
  | other

/-- `TileCover` (tile_cover/tile_cover.go:178-230); `ord i n` is the map order in turn `n` of part `i`. -/
noncomputable def tileCover (M : MathLib) (ord : Nat → Nat → List TileID → List TileID) (zoom : Nat) : Geom → Option (List TileID)
  | .point p => some [tile M p.1 p.2 zoom]
  | .lineString l => getTilesLine M (ord 0) l zoom
  | .polygon [] => none
  | .polygon (outer :: holes) => if outer.length > 3 then getTilesPolygon M (outer :: holes) zoom else some []
  | .multiPoint _ l => getTilesLine M (ord 0) l zoom
  | .multiLineString ls => mergeParts (fun i l => getTilesLine M (ord i) l zoom) 0 [] ls
  | .multiPolygon ps => mergeParts (fun _ p => getTilesPolygon M p zoom) 0 [] ps
  | .other => some []

end Verif.CoverF
