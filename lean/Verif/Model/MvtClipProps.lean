import Verif.Model.MvtClip

/-!
# Clipping of whole features: properties and ids (mvt/clip.go)

A Go map is a reference: features that hold the same map see each other's changes. A heap gives for each map its entries; a feature holds
no map (nil) or the number of one. The values of properties are a parameter; `ofTile` is a `TileID` as such a value. The bounding box of a
feature (go-geom) is not modelled. `none` stands for a panic, such as an assignment to a nil map.
-/
namespace Verif.Clip
open Verif.Tid Verif.Go

/-- The property maps of the program. Go language; mvt/clip.go:261-355. -/
abbrev Heap (V : Type) := Nat → String → Option V

/-- `m[k] = v`. Go language, at mvt/clip.go:265, 283, 287, 298, 311, 316. -/
def Heap.put {V : Type} (h : Heap V) (r : Nat) (k : String) (v : V) : Heap V :=
  fun r' k' => if r' = r ∧ k' = k then some v else h r' k'

/-- A `geom.Feature` (go-geom): geometry, property map, id. mvt/clip.go:261-501. -/
structure Feat (F I : Type) where
  geom : Geom F
  props : Option Nat
  id : Option I

/-- `&geom.Feature{}` (mvt/clip.go:269, 292). -/
def Feat.zero {F I : Type} : Feat F I := ⟨.empty, none, none⟩

variable {F I V : Type}

/-- mvt/clip.go:261-293 `PointClipAboutTile`; `tl` is `m.Tile` at the tile's zoom. A multi-point gives a new feature, whose id is not set. -/
def pointClipAboutTile (tl : F × F → TileID) (ofTile : TileID → V) (h : Heap V) (f : Feat F I) (t : TileID) : Option (Heap V × Feat F I) :=
  match f.geom with
  | .point p =>
    if pointAboutTile tl p t then
      match f.props with
      | none => none
      | some r => some (h.put r "TILEID" (ofTile t), f)
    else some (h, .zero)
  | .multiPoint ps =>
    match multiPointAboutTile tl ps t with
    | none => some (h, .zero)
    | some new =>
      match f.props with
      | none => none
      | some r => some (h.put r "TILEID" (ofTile t), ⟨.multiPoint new, some r, none⟩)
  | _ => some (h, .zero)

/-- The loop mvt/clip.go:307-321 over the entries of `newpoints`, in the order it is ranged over. -/
def labelLoop (ofTile : TileID → V) (props : Option Nat) :
    List (TileID × List (F × F)) → Heap V → Option (Heap V × List (TileID × Feat F I))
  | [], h => some (h, [])
  | e :: es, h =>
    if e.2.length > 0 then
      match props with
      | none => none
      | some r => (labelLoop ofTile props es (h.put r "TILEID" (ofTile e.1))).map fun x => (x.1, (e.1, ⟨.multiPoint e.2, some r, none⟩) :: x.2)
    else labelLoop ofTile props es h

/-- mvt/clip.go:295-325 `PointClipAboutZoom`; `tl` is `m.Tile` at the zoom, `order` the order a map is ranged over. -/
def pointClipAboutZoom (tl : F × F → TileID) (ofTile : TileID → V) (order : List (TileID × List (F × F)) → List (TileID × List (F × F)))
    (h : Heap V) (f : Feat F I) : Option (Heap V × List (TileID × Feat F I)) :=
  match f.geom with
  | .point p =>
    match f.props with
    | none => none
    | some r => some (h.put r "TILEID" (ofTile (tl p)), [(tl p, f)])
  | .multiPoint ps => labelLoop ofTile f.props (order (groupPoints tl ps)) h
  | _ => some (h, [])

section
variable [Zero F] [Add F] [Sub F] [Mul F] [Div F] [LinearOrder F]

/-- mvt/clip.go:327-355 `makefeature` with the properties and the id it is given. -/
def makeFeat (g : Geom F) (props : Option Nat) (id : Option I) : Option (Feat F I) := (makefeature g).map fun g => ⟨g, props, id⟩

/-- mvt/clip.go:357-367 `ClipTile`; `bds` is `Bounds(tileid)`. -/
def clipTileFeature (p7 : F) (tl : F × F → TileID) (ofTile : TileID → V) (h : Heap V) (f : Feat F I) (t : TileID) (bds : Box F) :
    Option (Heap V × Feat F I) :=
  match f.geom with
  | .point _ => pointClipAboutTile tl ofTile h f t
  | .multiPoint _ => pointClipAboutTile tl ofTile h f t
  | g => do
    let g1 ← clip p7 g bds.W bds.E .x
    let g2 ← clip p7 g1 bds.S bds.N .y
    let r ← makeFeat g2 f.props f.id
    return (h, r)

end

/-- Map assignment. Go language, at mvt/clip.go:476, 490. -/
def featSet (m : List (TileID × Feat ℝ I)) (k : TileID) (f : Feat ℝ I) : List (TileID × Feat ℝ I) :=
  m.filter (fun p => p.1 ≠ k) ++ [(k, f)]

/-- mvt/clip.go:484-490: the children entries of one map entry; properties and id come from the feature `f` that is clipped. -/
noncomputable def childFeats (f : Feat ℝ I) (k : TileID) (e : Feat ℝ I) : Option (List (TileID × Feat ℝ I)) :=
  match children k with
  | [t0, t1, t2, t3] => do
    let r ← clipDownTile power7 e.geom (tileBox k) (tileBox t0) (tileBox t1) (tileBox t2) (tileBox t3)
    (([t0, t1, t2, t3].zip r).filterMap fun p => p.2.map fun g => (p.1, g)).mapM
      fun p => (makeFeat p.2 f.props f.id).map fun g => (p.1, g)
  | _ => none

/-- The body of the loop mvt/clip.go:480-498 for the entries `es` of the current zoom. Second component: `lastk.Z`. -/
noncomputable def featStep (f : Feat ℝ I) (keepParents : Bool) :
    List (TileID × Feat ℝ I) → List (TileID × Feat ℝ I) → Nat → Option (List (TileID × Feat ℝ I) × Nat)
  | [], m, last => some (m, last)
  | (k, e) :: es, m, last => do
    let cs ← childFeats f k e
    let m := cs.foldl (fun m p => featSet m p.1 p.2) m
    let last := cs.foldl (fun l p => if p.1.Z ≠ 0 then p.1.Z else l) last
    let m := if keepParents then m else m.filter (fun p => p.1 ≠ k)
    featStep f keepParents es m last

/-- The loop mvt/clip.go:480-498 with at most `fuel` turns, as `clipLevels`. -/
noncomputable def featLevels (f : Feat ℝ I) (keepParents : Bool) (order : List (TileID × Feat ℝ I) → List (TileID × Feat ℝ I)) (endzoom : Int) :
    Nat → Int → List (TileID × Feat ℝ I) → Option (Option (List (TileID × Feat ℝ I)))
  | fuel, cz, m =>
    if cz < endzoom then
      match fuel with
      | 0 => some none
      | fuel + 1 =>
        match featStep f keepParents ((order m).filter fun p => i64 p.1.Z = cz) m 0 with
        | none => none
        | some (m', last) => featLevels f keepParents order endzoom fuel (i64 last) m'
    else some (some m)

/-- mvt/clip.go:461-501 `ClipFeature`; `bb` is the bounding box of the geometry (go-geom), `orderP` and `order` are the orders maps are
ranged over. -/
noncomputable def clipFeatureFeature (ofTile : TileID → V) (orderP : List (TileID × List (ℝ × ℝ)) → List (TileID × List (ℝ × ℝ)))
    (order : List (TileID × Feat ℝ I) → List (TileID × Feat ℝ I)) (fuel : Nat) (h : Heap V) (f : Feat ℝ I) (bb : Box ℝ)
    (endzoom : Int) (keepParents : Bool) : Option (Option (Heap V × List (TileID × Feat ℝ I))) :=
  match f.geom with
  | .point _ => (pointClipAboutZoom (fun p => tile p.1 p.2 endzoom) ofTile orderP h f).map some
  | .multiPoint _ => (pointClipAboutZoom (fun p => tile p.1 p.2 endzoom) ofTile orderP h f).map some
  | _ =>
    let (first, t) := getFirstZoom bb
    let m := [(t, f)]
    if first ≥ endzoom then
      match upTo endzoom fuel t with
      | none => some none
      | some t' =>
        match makeFeat f.geom f.props f.id with
        | none => none
        | some f' => some (some (h, featSet m t' f'))
    else (featLevels f keepParents order endzoom fuel first m).map fun r => r.map fun m => (h, m)

end Verif.Clip
