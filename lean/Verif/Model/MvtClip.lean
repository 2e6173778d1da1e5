import Verif.Model.TileGeo
import Mathlib.Order.Defs.LinearOrder

/-!
# Model of `mvt/clip.go`

Coordinates live in a type `F` with a linear order and operations `+ - * /` about which the definitions assume nothing, so
the same model covers exact and rounded arithmetic (NaN excluded: `F` is linearly ordered). Points are pairs: further
ordinates, which clipping drops or ignores, are not modelled. `none` stands for a panic.
-/
namespace Verif.Clip
open Verif.Tid Verif.Go

variable {F : Type} [Zero F] [Add F] [Sub F] [Mul F] [Div F] [LinearOrder F]

/-- `Axis` of mvt/clip.go:19,27: 0 (x) or 1 (y), the only values `clip`'s callers pass. -/
inductive Axis | x | y
  deriving DecidableEq, Repr

/-- The coordinate along the axis (mvt/clip.go:83-89). -/
def coord : Axis → F × F → F
  | .x, p => p.1
  | .y, p => p.2

/-- mvt/clip.go:34-67 `IntersectX`, `IntersectY`, `Intersect`: the point appended for the crossing of `a b` with `v`. The
returned parameter is never used and not modelled. -/
def intersect : Axis → F × F → F × F → F → F × F
  | .x, a, b, v =>
    let t := (v - a.1) / (b.1 - a.1)
    if b.1 - a.1 = 0 then (v, a.2) else (v, a.2 + (b.2 - a.2) * t)
  | .y, a, b, v =>
    let t := (v - a.2) / (b.2 - a.2)
    if b.2 - a.2 = 0 then (a.1, v) else (a.1 + (b.1 - a.1) * t, v)

/-- mvt/clip.go:92-102: what the start `a` of a segment `a b` contributes. -/
def entering (ax : Axis) (k1 k2 : F) (a b : F × F) : List (F × F) :=
  if coord ax a ≤ k1 then
    if coord ax b ≥ k1 then [intersect ax a b k1] else []
  else if coord ax a ≥ k2 then
    if coord ax b ≤ k2 then [intersect ax a b k2] else []
  else [a]

/-- mvt/clip.go:103-110: points added when the segment leaves the slab. -/
def leaving (ax : Axis) (k1 k2 : F) (a b : F × F) : List (F × F) :=
  (if coord ax b < k1 ∧ coord ax a ≥ k1 then [intersect ax a b k1] else []) ++
  (if coord ax b > k2 ∧ coord ax a ≤ k2 then [intersect ax a b k2] else [])

/-- mvt/clip.go:90,105,109 `exited`. -/
def exited (ax : Axis) (k1 k2 : F) (a b : F × F) : Bool :=
  (coord ax b < k1 && coord ax a ≥ k1) || (coord ax b > k2 && coord ax a ≤ k2)

/-- `slice.Slice` and `input.NewGeom`. `slice.Pos` is always the length of `slice.Slice`. mvt/clip.go:14-32. -/
structure St (F : Type) where
  slice : List (F × F)
  out : List (List (F × F))

/-- One turn of the loop mvt/clip.go:78-117. -/
def segStep (ring : Bool) (ax : Axis) (k1 k2 : F) (st : St F) (a b : F × F) : St F :=
  let s := st.slice ++ entering ax k1 k2 a b ++ leaving ax k1 k2 a b
  if !ring && exited ax k1 k2 a b then ⟨[], st.out ++ [s]⟩ else ⟨s, st.out⟩

/-- mvt/clip.go:131-134: a ring of at least four points that does not end where it starts gets its first point appended. -/
def closeRing (ring : Bool) (s : List (F × F)) : List (F × F) :=
  match s.head?, s.getLast? with
  | some f, some l => if ring && s.length ≥ 4 && (l.1 != f.1 || l.2 != f.2) then s ++ [f] else s
  | _, _ => s

/-- mvt/clip.go:119-138: after the loop; `a` is the last vertex. -/
def finish (ring : Bool) (ax : Axis) (k1 k2 : F) (st : St F) (a : F × F) : List (List (F × F)) :=
  let s := if coord ax a ≥ k1 ∧ coord ax a ≤ k2 then st.slice ++ [a] else st.slice
  let s := closeRing ring s
  if s.length > 0 then st.out ++ [s] else st.out

/-- mvt/clip.go:74-139 `(*ClipGeom).clipLine`: an empty geometry panics at line 120. -/
def clipLoop (ring : Bool) (ax : Axis) (k1 k2 : F) : List (F × F) → St F → Option (List (List (F × F)))
  | [], _ => none
  | [a], st => some (finish ring ax k1 k2 st a)
  | a :: b :: rest, st => clipLoop ring ax k1 k2 (b :: rest) (segStep ring ax k1 k2 st a b)

/-- mvt/clip.go:141-145 `clipLine`. -/
def clipLine (g : List (F × F)) (k1 k2 : F) (ax : Axis) (ring : Bool) : Option (List (List (F × F))) :=
  clipLoop ring ax k1 k2 g ⟨[], []⟩

/-- mvt/clip.go:147-158 `clipLines`: the pieces of all lines, in order. -/
def clipLines (g : List (List (F × F))) (k1 k2 : F) (ax : Axis) (ring : Bool) : Option (List (List (F × F))) :=
  (g.mapM fun l => clipLine l k1 k2 ax ring).map List.flatten

/-- mvt/clip.go:160-169 `clipMultiPolygon`. -/
def clipMultiPolygon (g : List (List (List (F × F)))) (k1 k2 : F) (ax : Axis) (ring : Bool) :
    Option (List (List (List (F × F)))) :=
  (g.mapM fun p => clipLines p k1 k2 ax ring).map (List.filter fun t => t.length > 0)

/-- `math.Abs`. Go library math, called at mvt/clip.go:173-176, 456-459. -/
def goAbs (d : F) : F := if d < 0 then 0 - d else d

/-- mvt/clip.go:173-176 `DeltaFirstLast`, `Power7`; `p7` is the value of `Power7`. -/
def deltaFirstLast (p7 : F) (p q : F × F) : Bool := goAbs (p.1 - q.1) > p7 || goAbs (p.2 - q.2) > p7

/-- mvt/clip.go:178-189, one ring: append the first point or overwrite the last one with it; an empty ring panics. The
code also overwrites the last point of the caller's ring in place; for that effect see Model/MvtAlias. -/
def lintRing (p7 : F) (line : List (F × F)) : Option (List (F × F)) :=
  match line.head?, line.getLast? with
  | some f, some l => some (if deltaFirstLast p7 f l then line ++ [f] else line.dropLast ++ [f])
  | _, _ => none

/-- mvt/clip.go:178-189 `LintPolygon`. -/
def lintPolygon (p7 : F) (p : List (List (F × F))) : Option (List (List (F × F))) := p.mapM (lintRing p7)

/-- `geom.GeometryData`, one constructor per `Type` string with the field it uses. `empty` is the zero value (Type "").
`multiLine` has Type "MultiLine", which `clip` tests for but go-geom never produces. `square` is the marker polygon of
mvt/clip.go:376-382 with its bounding box W, S, E, N. -/
inductive Geom (F : Type) where
  | empty
  | point (p : F × F)
  | multiPoint (ps : List (F × F))
  | lineString (l : List (F × F))
  | multiLine (ls : List (List (F × F)))
  | multiLineString (ls : List (List (F × F)))
  | polygon (p : List (List (F × F)))
  | multiPolygon (ps : List (List (List (F × F))))
  | square (w s e n : F)
  deriving DecidableEq

/-- mvt/clip.go:204-210, 214-220: one piece is a LineString, otherwise a MultiLineString. -/
def lineResult : List (List (F × F)) → Geom F
  | [one] => .lineString one
  | ls => .multiLineString ls

/-- mvt/clip.go:232-238: one polygon is a Polygon, otherwise a MultiPolygon. -/
def polyResult : List (List (List (F × F))) → Geom F
  | [one] => .polygon one
  | ps => .multiPolygon ps

/-- mvt/clip.go:198-241 `clip`. A geometry of any other type gives the zero value. (`square` is never passed to it: the
8-ordinate marker is caught earlier at line 389; clipping it is given the zero value here.) -/
def clip (p7 : F) (g : Geom F) (k1 k2 : F) (ax : Axis) : Option (Geom F) :=
  match g with
  | .lineString l => (clipLine l k1 k2 ax false).map lineResult
  | .multiLine l => (clipLines l k1 k2 ax false).map lineResult
  | .polygon p => do
    let p' ← lintPolygon p7 p
    let ls ← clipLines p' k1 k2 ax true
    return .polygon ls
  | .multiPolygon ps => do
    let ps' ← ps.mapM (lintPolygon p7)
    let r ← clipMultiPolygon ps' k1 k2 ax true
    return polyResult r
  | _ => some .empty

/-- mvt/clip.go:243-259 `IsEmpty`. -/
def isEmpty : Geom F → Bool
  | .point _ => true
  | .multiPoint ps => ps.length == 0
  | .lineString l => l.length == 0
  | .multiLineString ls => ls.length == 0
  | .polygon p => p.length == 0
  | .multiPolygon ps => ps.length == 0
  | _ => false

/-- mvt/clip.go:327-355 `makefeature`: the geometry of the new feature. A polygon without a first ring or point panics at
line 340. The properties and id are passed through; the bounding box (go-geom) is not modelled. -/
def makefeature : Geom F → Option (Geom F)
  | .polygon [] => none
  | .polygon ([] :: _) => none
  | .square w s e n => some (.polygon [[(e, n), (w, n), (w, s), (e, s), (e, n)]])
  | .multiLine _ => some .empty
  | g => some g

/-- A box, as `Extrema` of tileid/tileid.go:11-16. -/
structure Box (F : Type) where
  W : F
  S : F
  E : F
  N : F

/-- mvt/clip.go:357-367 `ClipTile` on a geometry that is not a point or multi-point; `bds` is `Bounds(tileid)`. -/
def clipTile (p7 : F) (g : Geom F) (bds : Box F) : Option (Geom F) := do
  let g1 ← clip p7 g bds.W bds.E .x
  let g2 ← clip p7 g1 bds.S bds.N .y
  makefeature g2

/-- mvt/clip.go:456-459 `DeltaBounds`. -/
def deltaBounds (p7 : F) (a b : Box F) : Bool :=
  goAbs (a.W - b.W) < p7 && goAbs (a.E - b.E) < p7 && goAbs (a.N - b.N) < p7 && goAbs (a.S - b.S) < p7

/-- `geom.BoundingBoxFromGeometryData` (go-geom, assumed): least and greatest coordinates of a non-empty point list.
Called at mvt/clip.go:384-501. -/
def bboxPts : List (F × F) → Option (Box F)
  | [] => none
  | p :: ps => some (ps.foldl (fun b q => ⟨min b.W q.1, min b.S q.2, max b.E q.1, max b.N q.2⟩) ⟨p.1, p.2, p.1, p.2⟩)

/-- The test of mvt/clip.go:398-415: a one-ring polygon of 4 or 5 points whose bounding box is the tile's. -/
def isTileSquare (p7 : F) (g : Geom F) (bds : Box F) : Bool :=
  match g with
  | .square _ _ _ _ => true
  | .polygon [r] =>
    (r.length == 4 || r.length == 5) && (match bboxPts r with | some b => deltaBounds p7 b bds | none => false)
  | _ => false

/-- mvt/clip.go:384-439 `ClipDownTile`. `bds` is the tile's box, `c0..c3` those of its children in the order of `Children`.
The result lists, for the children 0..3, the geometry if its entry stays in the map. -/
def clipDownTile (p7 : F) (g : Geom F) (bds c0 c1 c2 c3 : Box F) : Option (List (Option (Geom F))) :=
  match g with
  | .polygon [] => none
  | .polygon ([] :: _) => none
  | g =>
    if isTileSquare p7 g bds then
      some [some (.square c0.W c0.S c0.E c0.N), some (.square c1.W c1.S c1.E c1.N),
        some (.square c2.W c2.S c2.E c2.N), some (.square c3.W c3.S c3.E c3.N)]
    else do
      let mx := c0.E
      let my := c0.S
      let l ← clip p7 g bds.W mx .x
      let r ← clip p7 g mx bds.E .x
      let ld ← clip p7 l bds.S my .y
      let lu ← clip p7 l my bds.N .y
      let rd ← clip p7 r bds.S my .y
      let ru ← clip p7 r my bds.N .y
      let keep := fun (v : Geom F) => if isEmpty v then none else some v
      return [keep lu, keep ru, keep rd, keep ld]

/-! ### Tiles and features (over ℝ) -/

/-- `Bounds` as a box. mvt/clip.go:369-374. -/
noncomputable def tileBox (t : TileID) : Box ℝ := ⟨(bounds t).W, (bounds t).S, (bounds t).E, (bounds t).N⟩

/-- mvt/clip.go:171 `Power7`. -/
noncomputable def power7 : ℝ := 1 / 10000000

/-- mvt/clip.go:441-454 `GetFirstZoom`: the loop from zoom `i` with `n` turns left. `len(mymap) > 1`: not all four corners
in one tile. -/
noncomputable def firstZoomLoop (b : Box ℝ) : Nat → Nat → Int × TileID
  | _, 0 => (30, ⟨0, 0, 30⟩)
  | i, n + 1 =>
    let c := [tile b.E b.N i, tile b.E b.S i, tile b.W b.N i, tile b.W b.S i]
    if c.dedup.length > 1 then ((i : Int) - 1, tile b.E b.N ((i : Int) - 1))
    else firstZoomLoop b (i + 1) n

/-- mvt/clip.go:441-454 `GetFirstZoom`. -/
noncomputable def getFirstZoom (b : Box ℝ) : Int × TileID := firstZoomLoop b 0 30

/-- The children entries one map entry `(k, g)` gives (mvt/clip.go:484-490). -/
noncomputable def childEntries (k : TileID) (g : Geom ℝ) : Option (List (TileID × Geom ℝ)) :=
  match children k with
  | [t0, t1, t2, t3] => do
    let r ← clipDownTile power7 g (tileBox k) (tileBox t0) (tileBox t1) (tileBox t2) (tileBox t3)
    (([t0, t1, t2, t3].zip r).filterMap fun p => p.2.map fun g => (p.1, g)).mapM
      fun p => (makefeature p.2).map fun g => (p.1, g)
  | _ => none

/-- Map assignment `mymap[k] = g`. Go language, at mvt/clip.go:384-501. -/
def mapSet (m : List (TileID × Geom ℝ)) (k : TileID) (g : Geom ℝ) : List (TileID × Geom ℝ) :=
  m.filter (fun p => p.1 ≠ k) ++ [(k, g)]

/-- The body of the loop mvt/clip.go:480-498 for the entries `es` of the current zoom, in the order the map is ranged over.
(Entries added while ranging have another zoom, so visiting them does nothing.) Second component: `lastk.Z`. -/
noncomputable def levelStep (keepParents : Bool) :
    List (TileID × Geom ℝ) → List (TileID × Geom ℝ) → Nat → Option (List (TileID × Geom ℝ) × Nat)
  | [], m, last => some (m, last)
  | (k, g) :: es, m, last => do
    let cs ← childEntries k g
    let m := cs.foldl (fun m p => mapSet m p.1 p.2) m
    let last := cs.foldl (fun l p => if p.1.Z ≠ 0 then p.1.Z else l) last
    let m := if keepParents then m else m.filter (fun p => p.1 ≠ k)
    levelStep keepParents es m last

/-- The loop mvt/clip.go:480-498 with at most `fuel` turns; `order` gives the order a map is ranged over. `none` in the
outer `Option`: a panic; `none` in the inner one: still running after `fuel` turns. -/
noncomputable def clipLevels (keepParents : Bool) (order : List (TileID × Geom ℝ) → List (TileID × Geom ℝ)) (endzoom : Int) :
    Nat → Int → List (TileID × Geom ℝ) → Option (Option (List (TileID × Geom ℝ)))
  | fuel, cz, m =>
    if cz < endzoom then
      match fuel with
      | 0 => some none
      | fuel + 1 =>
        match levelStep keepParents ((order m).filter fun p => i64 p.1.Z = cz) m 0 with
        | none => none
        | some (m', last) => clipLevels keepParents order endzoom fuel (i64 last) m'
    else some (some m)

/-- mvt/clip.go:473-475: `for int(tileid.Z) != endzoom { tileid = Parent(tileid) }`, with fuel. -/
noncomputable def upTo (endzoom : Int) : Nat → TileID → Option TileID
  | 0, t => if i64 t.Z = endzoom then some t else none
  | fuel + 1, t => if i64 t.Z = endzoom then some t else upTo endzoom fuel (parent t)

/-- mvt/clip.go:461-501 `ClipFeature` on a geometry that is not a point or multi-point; `bb` is its bounding box. -/
noncomputable def clipFeature (order : List (TileID × Geom ℝ) → List (TileID × Geom ℝ)) (fuel : Nat) (g : Geom ℝ) (bb : Box ℝ)
    (endzoom : Int) (keepParents : Bool) : Option (Option (List (TileID × Geom ℝ))) :=
  let (first, t) := getFirstZoom bb
  let m := [(t, g)]
  if first ≥ endzoom then
    match upTo endzoom fuel t with
    | none => some none
    | some t' =>
      match makefeature g with
      | none => none
      | some g' => some (some (mapSet m t' g'))
  else clipLevels keepParents order endzoom fuel first m

/-! ### Points -/

/-- mvt/clip.go:270-292 `PointClipAboutTile` on a multi-point: the points kept, or `none` for the empty feature. `tl` is
`m.Tile` at the tile's zoom. -/
def multiPointAboutTile (tl : F × F → TileID) (ps : List (F × F)) (t : TileID) : Option (List (F × F)) :=
  let new := ps.filter fun p => isEqual (tl p) t
  if new.length > 0 then some new else none

/-- mvt/clip.go:262-269 `PointClipAboutTile` on a point: whether the feature is returned. -/
def pointAboutTile (tl : F × F → TileID) (p : F × F) (t : TileID) : Bool := isEqual (tl p) t

/-- `newpoints[k] = append(newpoints[k], pt)` on a map kept as a list of entries. mvt/clip.go:295-325. -/
def mapAppend (m : List (TileID × List (F × F))) (k : TileID) (p : F × F) : List (TileID × List (F × F)) :=
  match m with
  | [] => [(k, [p])]
  | e :: m => if e.1 = k then (k, e.2 ++ [p]) :: m else e :: mapAppend m k p

/-- mvt/clip.go:301-305: the map of points by tile. -/
def groupPoints (tl : F × F → TileID) (ps : List (F × F)) : List (TileID × List (F × F)) :=
  ps.foldl (fun m p => mapAppend m (tl p) p) []

/-- mvt/clip.go:306-322: the feature map, ranged over in the order `es` of the entries of `newpoints`. All features share
the property map of the input, in which `TILEID` is overwritten each time: `label` is its final value. -/
structure PointsOut (F : Type) where
  feats : List (TileID × List (F × F))
  label : Option TileID

/-- mvt/clip.go:295-325 `PointClipAboutZoom` on a multi-point, with `es` an order of the entries of the map. -/
def multiPointAboutZoom (es : List (TileID × List (F × F))) : PointsOut F :=
  es.foldl (fun o e => if e.2.length > 0 then ⟨o.feats ++ [e], some e.1⟩ else o) ⟨[], none⟩

end Verif.Clip
