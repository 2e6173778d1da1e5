import Verif.Model.MvtGeom
import Mathlib.Data.List.Destutter

/-! # Specification vocabulary for the geometry properties (independent of the encoder) -/
namespace Verif.Mvt.Spec
open Verif.Mvt

/-- A line without points equal to their predecessor. -/
def noRepeats (l : Line) : Line := l.destutter (· ≠ ·)

/-- A ring with its first point repeated at the end, unless it already ends with its first point. -/
def close {P : Type} [DecidableEq P] (r : List P) : List P :=
  if r.head? = r.getLast? then r else r ++ r.head?.toList

/-- `out` is the ring `ring` (consecutive duplicates removed), run through in one of the two directions. -/
def SameRing (ring out : Line) : Prop := out = noRepeats ring ∨ out = noRepeats ring.reverse

/-- Twice the signed area of a closed ring (shoelace formula over consecutive points). -/
def area2 : Line → Int
  | p :: q :: l => (p.1 - q.1) * (q.2 + p.2) + area2 (q :: l)
  | _ => 0

/-- The geometry a list of lines stands for: one line is a LineString. -/
def asLines : List Line → Geom
  | [l] => .lineString l
  | ls => .multiLineString ls

/-- The geometry a list of polygons stands for: one polygon is a Polygon. -/
def asPolygons : List (List Line) → Geom
  | [p] => .polygon p
  | ps => .multiPolygon ps

/-- The rings of polygons in order, each with a flag: is it a hole (not the first ring of its polygon)? -/
def flagged {R : Type} (polys : List (List R)) : List (Bool × R) :=
  polys.flatMap fun p => (p.head?.toList.map fun r => (false, r)) ++ p.tail.map fun r => (true, r)

/-- Cut a list before every flagged element: what comes before the first one, and the pieces that begin with one. -/
def cutBefore {R : Type} : List (Bool × R) → List R × List (List R)
  | [] => ([], [])
  | (false, r) :: l => (r :: (cutBefore l).1, (cutBefore l).2)
  | (true, r) :: l => ([], (r :: (cutBefore l).1) :: (cutBefore l).2)

/-- Polygons regrouped the wrong way round: every hole begins a new polygon, the outer ring of every polygon but the first
joins the polygon before it. -/
def holesFirst {R : Type} (polys : List (List R)) : List (List R) :=
  (cutBefore (flagged polys)).1 :: (cutBefore (flagged polys)).2

end Verif.Mvt.Spec
