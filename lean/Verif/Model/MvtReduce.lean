import Verif.Model.MvtClip

/-!
# Model of `mvt/simplify.go` and `mvt/feature_reduce.go`

Coordinates in a type `F` with a linear order and operations without assumed laws (so rounding is covered, NaN is not).
`none` stands for a panic.
-/
namespace Verif.Reduce
open Verif.Tid Verif.Go

variable {F : Type} [Zero F] [One F] [Add F] [Sub F] [Mul F] [Div F] [LinearOrder F]

/-- mvt/simplify.go:7-28 `GetSqSegDist`. -/
def sqSegDist (p a b : F × F) : F :=
  let dx := b.1 - a.1
  let dy := b.2 - a.2
  let c : F × F :=
    if dx ≠ 0 ∨ dy ≠ 0 then
      let t := ((p.1 - a.1) * dx + (p.2 - a.2) * dy) / (dx * dx + dy * dy)
      if t > 1 then b else if t > 0 then (a.1 + dx * t, a.2 + dy * t) else a
    else a
  (p.1 - c.1) * (p.1 - c.1) + (p.2 - c.2) * (p.2 - c.2)

/-- A vertex: three consecutive entries of the flat slice `coords` (x, y, importance). Positions in the slice are three times
the positions in the list of vertices; callers pass multiples of three. mvt/simplify.go:30-66. -/
structure Vertex (F : Type) where
  xy : F × F
  imp : F

/-- The variables of the scan: `index` (0 until set), `maxSqDist`, `minPosToMid` (mvt/simplify.go:31-34). -/
structure Scan (F : Type) where
  index : Nat
  maxD : F
  minPos : Int

/-- One turn of the loop mvt/simplify.go:41-55 for the vertex `i` (slice position `3 i`). `coords` is the slice. -/
def scanStep (coords : List (Vertex F)) (a b : F × F) (mid : Int) (s : Scan F) (i : Nat) : Option (Scan F) :=
  match coords[i]? with
  | none => none
  | some v =>
    let d := sqSegDist v.xy a b
    if d > s.maxD then some ⟨i, d, s.minPos⟩
    else if d = s.maxD then
      let pos : Int := ((3 * i : Int) - mid).natAbs
      if pos < s.minPos then some ⟨i, s.maxD, pos⟩ else some s
    else some s

/-- The loop mvt/simplify.go:41-55 over the vertices strictly between `first` and `last`. -/
def scan (coords : List (Vertex F)) (first last : Nat) (tol : F) : Option (Scan F) :=
  match coords[first]?, coords[last]? with
  | some a, some b =>
    let mid : Int := (3 * last - 3 * first : Int) / 2
    (List.range' (first + 1) (last - first - 1)).foldlM (scanStep coords a.xy b.xy mid)
      ⟨0, tol, 3 * last - 3 * first⟩
  | _, _ => none

/-- `coords[index+2] = maxSqDist` (mvt/simplify.go:61). -/
def setImp (coords : List (Vertex F)) (i : Nat) (d : F) : Option (List (Vertex F)) :=
  match coords[i]? with
  | some v => some (coords.set i ⟨v.xy, d⟩)
  | none => none

/-- mvt/simplify.go:30-66 `Simplify` with a recursion depth limit `fuel`: the outer `none` is a panic, the inner one means the
limit was reached. The result is the slice afterwards. -/
def simplify (tol : F) : Nat → List (Vertex F) → Nat → Nat → Option (Option (List (Vertex F)))
  | fuel, coords, first, last =>
    match scan coords first last tol with
    | none => none
    | some s =>
      if s.maxD > tol then
        match fuel with
        | 0 => some none
        | fuel + 1 =>
          match (if 3 * s.index > 3 * first + 3 then simplify tol fuel coords first s.index else some (some coords)) with
          | none => none
          | some none => some none
          | some (some c1) =>
            match setImp c1 s.index s.maxD with
            | none => none
            | some c2 =>
              if 3 * last > 3 * s.index + 3 then simplify tol fuel c2 s.index last else some (some c2)
      else some (some coords)

/-! ### feature_reduce.go -/

/-- The parts of `Reduce_Config` (mvt/feature_reduce.go:12-21) `Filter` uses; `seen` is the key set of `TileMap`. -/
structure Config (F : Type) where
  percent : F
  deltaX : F
  deltaY : F
  seen : List TileID
  operate : Bool

/-- A feature as `Filter` sees it: its points, or the width and height of its bounding box (go-geom), or some other type.
mvt/feature_reduce.go:40-81. -/
inductive Feat (F : Type) where
  | point (p : F × F)
  | multiPoint (ps : List (F × F))
  | shape (w h : F)
  | other

/-- mvt/feature_reduce.go:56-62: the mean of the points. `ofLen` converts a length to a float. -/
def mean (ofLen : Nat → F) (ps : List (F × F)) : F × F :=
  let s := ps.foldl (fun s p => (s.1 + p.1, s.2 + p.2)) ((0 : F), (0 : F))
  (s.1 / ofLen ps.length, s.2 / ofLen ps.length)

/-- mvt/feature_reduce.go:40-81 `Filter`: the answer, the feature afterwards and the config afterwards. `tl` is `m.Tile` at
`config.Zoom`. -/
def filter (tl : F × F → TileID) (ofLen : Nat → F) (f : Feat F) (c : Config F) : Bool × Feat F × Config F :=
  if !c.operate then (true, f, c)
  else match f with
  | .point p =>
    if tl p ∈ c.seen then (false, f, c) else (true, f, { c with seen := tl p :: c.seen })
  | .multiPoint ps =>
    let a := mean ofLen ps
    if tl a ∈ c.seen then (false, f, c) else (true, .point a, { c with seen := tl a :: c.seen })
  | .shape w h => (w / c.deltaX > c.percent || h / c.deltaY > c.percent, f, c)
  | .other => (false, f, c)

/-- A sequence of calls with one config: the answers and the features afterwards.
Repeated calls of mvt/feature_reduce.go:40-81. -/
def runFilter (tl : F × F → TileID) (ofLen : Nat → F) : List (Feat F) → Config F → List (Bool × Feat F)
  | [], _ => []
  | f :: fs, c =>
    let r := filter tl ofLen f c
    (r.1, r.2.1) :: runFilter tl ofLen fs r.2.2

end Verif.Reduce
