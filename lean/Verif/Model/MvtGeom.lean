import Verif.Model.GoBase

/-!
# Model of the geometry commands: `mvt/write_geometry.go` and `LoadGeometry` of `mvt/read_feature_lazy.go`

Tile coordinates are `int32`s modelled as `Int` with wrap-around (`i32`) where the code subtracts or multiplies them.
Words are `uint32`s modelled as `Nat`. The reader's `float64` coordinates are sums of integers and are modelled as
exact integers (exact in float64 while below 2^53).
-/
namespace Verif.Mvt
open Verif.Go

/-- mvt/write_geometry.go:107-136 ([]int32 of length two, and slices of them). -/
abbrev Pt := Int × Int
/-- mvt/write_geometry.go:107-136 ([]int32 of length two, and slices of them). -/
abbrev Line := List Pt

/-- mvt/write_geometry.go:87-89 `cmdEnc` (uint32 arithmetic). -/
def cmdEnc (id count : Nat) : Nat := (id &&& 7) ||| (count * 8 % 4294967296)

/-- mvt/write_geometry.go:91-93. -/
def moveTo (count : Nat) : Nat := cmdEnc 1 count
/-- mvt/write_geometry.go:95-97. -/
def lineTo (count : Nat) : Nat := cmdEnc 2 count
/-- mvt/write_geometry.go:99-101. -/
def closePath (count : Nat) : Nat := cmdEnc 7 count

/-- mvt/write_geometry.go:103-105 `uint32(paramEnc(value))`: `(value << 1) ^ (value >> 31)` on 32-bit words, with the
arithmetic right shift of a signed operand. -/
def paramEnc (value : Int) : Nat :=
  ((BitVec.ofInt 32 value <<< 1) ^^^ (BitVec.ofInt 32 value).sshiftRight 31).toNat

/-- mvt/read_feature_lazy.go:23-29 `DeltaDim` on a non-negative argument (every caller passes a `uint32`). Go's `/`
truncates toward zero. -/
def deltaDim (num : Nat) : Int :=
  if num % 2 = 1 then ((num : Int) + 1).tdiv (-2) else (num : Int).tdiv 2

/-- mvt/write_geometry.go:11-21 `Cursor`: the fields the command encoder uses. -/
structure Cursor where
  geometry : List Nat
  last : Pt
  count : Nat
  deriving DecidableEq, Repr

/-- `Cursor{LastPoint: []int32{0, 0}}` (mvt/write_geometry.go:61-77). -/
def Cursor.new : Cursor := ⟨[], (0, 0), 0⟩

/-- mvt/write_geometry.go:107-113 `MovePoint`. -/
def movePoint (c : Cursor) (p : Pt) : Cursor :=
  { geometry := c.geometry ++ [moveTo 1] ++ [paramEnc (i32 (p.1 - c.last.1))] ++ [paramEnc (i32 (p.2 - c.last.2))]
    last := p
    count := 0 }

/-- mvt/write_geometry.go:115-124 `LinePoint`: a point equal to the last one writes nothing. -/
def linePoint (c : Cursor) (p : Pt) : Cursor :=
  let dx := i32 (p.1 - c.last.1)
  let dy := i32 (p.2 - c.last.2)
  if ¬ (dx = 0 ∧ dy = 0) then
    { geometry := c.geometry ++ [paramEnc dx] ++ [paramEnc dy], last := p, count := (c.count + 1) % 4294967296 }
  else { c with last := p }

/-- mvt/write_geometry.go:126-136 `MakeLine`; `none` is the index panic on an empty line. -/
def makeLine (c : Cursor) : Line → Option Cursor
  | [] => none
  | p :: ps =>
    let startpos := c.geometry.length
    let c1 := movePoint c p
    let c2 := { c1 with geometry := c1.geometry ++ [lineTo (ps.length % 4294967296)] }
    let c3 := ps.foldl linePoint c2
    some { c3 with geometry := c3.geometry.set (startpos + 3) (lineTo c3.count) }

/-- mvt/write_geometry.go:341-345 `MakeMultiLine`. -/
def makeMultiLine (c : Cursor) : List Line → Option Cursor
  | [] => some c
  | l :: ls => (makeLine c l).bind (makeMultiLine · ls)

/-- mvt/write_geometry.go:315-318 `MakePoint`. -/
def makePoint (c : Cursor) (p : Pt) : Cursor := linePoint { c with geometry := [moveTo 1] } p

/-- mvt/write_geometry.go:328-333 `MakeMultiPoint`. -/
def makeMultiPoint (c : Cursor) (ps : List Pt) : Cursor :=
  ps.foldl linePoint { c with geometry := [moveTo (ps.length % 4294967296)] }

/-- mvt/write_geometry.go:149-157 `reverse`. -/
def reverse (coord : Line) : Line := coord.foldl (fun acc p => p :: acc) []

/-- mvt/write_geometry.go:36-45 `TrimPolygon` / 25-34 `TrimPolygonFloat` on one ring: append the first point if the ring
is not closed; `none`: index panic on an empty ring. -/
def trimRing {P : Type} [DecidableEq P] : List P → Option (List P)
  | [] => none
  | p :: ps => some (if (p :: ps).getLast? = some p then p :: ps else (p :: ps) ++ [p])

/-- `TrimPolygon` / `TrimPolygonFloat` on all rings. mvt/write_geometry.go:25-45. -/
def trimPolygon {P : Type} [DecidableEq P] : List (List P) → Option (List (List P))
  | [] => some []
  | r :: rs => match trimRing r, trimPolygon rs with
    | some r', some rs' => some (r' :: rs')
    | _, _ => none

/-- The product added in `SignedArea2`/`assert_winding_order`: int32 arithmetic. mvt/write_geometry.go:168, 201. -/
def term32 (a b : Pt) : Int := i32 (i32 (a.1 - b.1) * i32 (b.2 + a.2))

/-- Loop of mvt/write_geometry.go:160-170: sum over consecutive pairs of `(pt - oldpt) * (pt + oldpt)`. -/
def windSum : Pt → List Pt → Int
  | _, [] => 0
  | old, p :: ps => term32 p old + windSum p ps

/-- mvt/write_geometry.go:159-186 `assert_winding_order`; `clockwise` is the expected orientation. The float64 sum is
exact here. -/
def assertWindingOrder (clockwise : Bool) : Line → Option Line
  | [] => none
  | p :: ps =>
    let last := ((p :: ps).getLast?).getD p
    let weight := windSum p ps + term32 p last
    some (if decide (weight > 0) ≠ clockwise then reverse (p :: ps) else p :: ps)

/-- The loop of `SignedArea2` from index 1 on. mvt/write_geometry.go:195-203. -/
def areaSum : Pt → List Pt → Int
  | _, [] => 0
  | prev, p :: ps => term32 prev p + areaSum p ps

/-- mvt/write_geometry.go:188-205 `SignedArea2`. -/
def signedArea2 : Line → Int
  | [] => 0
  | p :: ps => term32 (((p :: ps).getLast?).getD p) p + areaSum p ps

/-- mvt/write_geometry.go:207-239 `AssertConvert`, after the conversion of the points (`SinglePoint`) to `ring`. -/
def assertConvert (c : Cursor) (clockwise : Bool) (ring : Line) : Option Cursor :=
  match ring with
  | [] => none
  | _ =>
    let newlist := if decide (signedArea2 ring > 0) ≠ clockwise then reverse ring else ring
    (makeLine ⟨[], c.last, 0⟩ newlist).map fun nc =>
      { c with geometry := c.geometry ++ (nc.geometry ++ [closePath 1]), last := (newlist.getLast?).getD c.last }

/-- The loop over the holes in `MakePolygonFloat`. mvt/write_geometry.go:265-275. -/
def convertHoles (c : Cursor) : List Line → Option Cursor
  | [] => some c
  | r :: rs => (assertConvert c false r).bind (convertHoles · rs)

/-- mvt/write_geometry.go:265-275 `MakePolygonFloat`; `sp` is `SinglePoint` (rounding to tile coordinates). -/
def makePolygonFloat {F : Type} [DecidableEq F] (sp : F → Pt) (c : Cursor) (coords : List (List F)) : Option Cursor :=
  match trimPolygon coords with
  | some (r :: rs) => (assertConvert c true (r.map sp)).bind (convertHoles · (rs.map (List.map sp)))
  | _ => none

/-- mvt/write_geometry.go:347-351 `MakeMultiPolygonFloat`. -/
def makeMultiPolygonFloat {F : Type} [DecidableEq F] (sp : F → Pt) (c : Cursor) : List (List (List F)) → Option Cursor
  | [] => some c
  | p :: ps => (makePolygonFloat sp c p).bind (makeMultiPolygonFloat sp · ps)

/-- The loop over the holes in `MakePolygon` (mvt/write_geometry.go:250-259). -/
def polygonHoles (c : Cursor) : List Line → Option Cursor
  | [] => some c
  | r :: rs =>
    (assertWindingOrder false r).bind fun coord =>
      (makeLine ⟨[], c.last, 0⟩ coord).bind fun nc =>
        polygonHoles { c with geometry := c.geometry ++ (nc.geometry ++ [closePath 1]), last := (coord.getLast?).getD c.last } rs

/-- mvt/write_geometry.go:241-263 `MakePolygon`. -/
def makePolygon (c : Cursor) (coords : List Line) : Option Cursor :=
  match trimPolygon coords with
  | some (r :: rs) =>
    (assertWindingOrder true r).bind fun coord =>
      (makeLine c coord).bind fun c1 => polygonHoles { c1 with geometry := c1.geometry ++ [closePath 1] } rs
  | _ => none

/-- mvt/write_geometry.go:353-357 `MakeMultiPolygon`. -/
def makeMultiPolygon (c : Cursor) : List (List Line) → Option Cursor
  | [] => some c
  | p :: ps => (makePolygon c p).bind (makeMultiPolygon · ps)

/-! ### Reader -/

/-- The point-pair loop of mvt/read_feature_lazy.go:175-180: reads at most `n` pairs while two words remain. Returns the
points, the last point and the remaining words. -/
def readPairs : Nat → Pt → List Nat → List Pt × Pt × List Nat
  | n + 1, fp, a :: b :: ws =>
    let p : Pt := (fp.1 + deltaDim a, fp.2 + deltaDim b)
    let (ps, l, r) := readPairs n p ws
    (p :: ps, l, r)
  | _, fp, ws => ([], fp, ws)

/-- The command loop of mvt/read_feature_lazy.go:154-195. `pos` is represented by the words that remain; `start` is the test
`pos == 1` (this is the first word); `total` is `len(geom_)`. `none` is a panic (index out of range, nil point). The
fuel is the number of words, which is always enough (`rdLoop_fuel`). -/
def rdLoop (ty total : Nat) : Nat → Bool → Option Pt → List Line → List Nat → Option (List Line)
  | _, _, _, lines, [] => some lines
  | 0, _, _, _, _ :: _ => none
  | fuel + 1, start, fp, lines, w :: ws =>
    if w = 9 then
      match ws with
      | a :: b :: rest =>
        let next : Option Pt :=
          if ¬ start ∧ (ty = 2 ∨ ty = 3) then fp.map (fun p => (p.1 + deltaDim a, p.2 + deltaDim b))
          else some (deltaDim a, deltaDim b)
        match next with
        | none => none
        | some p =>
          let lines := if total = 3 then [[p]] else lines
          match rest with
          | [] => some lines
          | cmd :: rest =>
            let (ps, l, rest') := readPairs (cmd / 8) p rest
            rdLoop ty total fuel false (some l) (lines ++ [p :: ps]) rest'
      | _ => none
    else rdLoop ty total fuel false fp lines ws

/-- mvt/read_feature_lazy.go:31-48 `SignedArea` from index 1 on. -/
def areaSumR : Pt → List Pt → Int
  | _, [] => 0
  | prev, p :: ps => (prev.1 - p.1) * (p.2 + prev.2) + areaSumR p ps

/-- mvt/read_feature_lazy.go:31-48 `SignedArea` (exact arithmetic). -/
def signedArea : Line → Int
  | [] => 0
  | p :: ps =>
    let l := ((p :: ps).getLast?).getD p
    (l.1 - p.1) * (p.2 + l.2) + areaSumR p ps

/-- `append(polygons[len-1], line)` on the last polygon, or a new one. mvt/read_feature_lazy.go:208-223. -/
def appendLast : List (List Line) → Line → List (List Line)
  | [], l => [[l]]
  | [q], l => [q ++ [l]]
  | q :: qs, l => q :: appendLast qs l

/-- The grouping loop of mvt/read_feature_lazy.go:208-223. -/
def groupRings (lines : List Line) : List (List Line) :=
  lines.foldl (fun polys line =>
    if line.length > 0 then
      if signedArea line > 0 then polys ++ [[line]] else appendLast polys line
    else polys) []

/-- mvt/read_feature_lazy.go:197-203: close every ring. -/
def closeRing : Line → Line
  | [] => []
  | p :: ps => if (p :: ps).getLast? = some p then p :: ps else (p :: ps) ++ [p]

/-- The geometries `LoadGeometry` returns (`geom.New…GeometryData`); `unknown` is a nil result for another type.
mvt/read_feature_lazy.go:196-249. -/
inductive Geom where
  | point (p : Pt)
  | multiPoint (ps : List Pt)
  | lineString (l : Line)
  | multiLineString (ls : List Line)
  | polygon (rs : List Line)
  | multiPolygon (ps : List (List Line))
  | unknown
  deriving DecidableEq, Repr

/-- mvt/read_feature_lazy.go:196-249: from the lines to the geometry. `none` is a panic. -/
def buildGeom (ty : Nat) (lines : List Line) : Option Geom :=
  if ty = 3 then
    let lines := lines.map closeRing
    let polygons := if lines.length = 1 then [lines] else groupRings lines
    match polygons with
    | [p] => some (.polygon p)
    | ps => some (.multiPolygon ps)
  else if ty = 1 then
    match lines with
    | [] => none
    | l :: _ => match l with
      | [p] => some (.point p)
      | ps => some (.multiPoint ps)
  else if ty = 2 then
    match lines with
    | [l] => some (.lineString l)
    | ls => some (.multiLineString ls)
  else some .unknown

/-- mvt/read_feature_lazy.go:138-251 `LoadGeometry` on the words of the geometry; `none` is the error result (recovered
panic). -/
def loadGeometry (ty : Nat) (geom : List Nat) : Option Geom :=
  (rdLoop ty geom.length geom.length true none [] geom).bind (buildGeom ty)

end Verif.Mvt
