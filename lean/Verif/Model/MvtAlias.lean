import Verif.Model.MvtClip
import Verif.Model.MvtGeom

/-!
# Closing rings in place

`LintPolygon` and `TrimPolygon` close the rings of the caller's polygon in the caller's memory. This model has a memory of arrays and Go
slices that point into it. A point (itself a slice) is a value here: none of these functions writes to a coordinate. The outer slice (the
list of rings) is written in place too, so the list of slices returned is also what the caller's polygon consists of afterwards.
-/
namespace Verif.Alias
open Verif.Clip

/-- A Go slice: `cap` cells from `off` on in array `arr`, of which the first `len` are its elements (Go language, for
mvt/clip.go:178-189). -/
structure Slice where
  arr : Nat
  off : Nat
  len : Nat
  cap : Nat

/-- The arrays of points in memory (Go language, for mvt/clip.go:178-189). -/
abbrev Heap (P : Type) := List (List P)

variable {P : Type}

/-- The elements of a slice (Go language, for mvt/clip.go:179). -/
def Heap.read (h : Heap P) (s : Slice) : List P := ((h.getD s.arr []).drop s.off).take s.len

/-- Assignment to cell `i` of array `a` (Go language, for mvt/clip.go:184). -/
def Heap.write (h : Heap P) (a i : Nat) (p : P) : Heap P := h.modify a fun l => l.set i p

/-- `append(s, p)` (Go language, for mvt/clip.go:182): in place if there is capacity, otherwise into a new array with `room` spare cells
holding nil. -/
def Heap.append (room : Nat → Nat) (nil : P) (h : Heap P) (s : Slice) (p : P) : Heap P × Slice :=
  if s.len < s.cap then (h.write s.arr (s.off + s.len) p, { s with len := s.len + 1 })
  else (h ++ [h.read s ++ [p] ++ List.replicate (room s.len) nil], ⟨h.length, 0, s.len + 1, s.len + 1 + room s.len⟩)

/-- What is done to a ring: append the first point, overwrite the last point with it, or nothing (mvt/clip.go:181-186,
mvt/write_geometry.go:28-31). -/
inductive Act | append | overwrite | keep
  deriving DecidableEq

/-- mvt/clip.go:181-186. -/
def lintAct {F : Type} [Zero F] [Sub F] [LinearOrder F] (p7 : F) (f l : F × F) : Act :=
  if deltaFirstLast p7 f l then .append else .overwrite

/-- mvt/write_geometry.go:27-31, 39-42. -/
def trimAct [DecidableEq P] (f l : P) : Act := if f = l then .keep else .append

/-- The body of the loops mvt/clip.go:179-187 and mvt/write_geometry.go:26-32, 37-43, for one ring; an empty ring panics. -/
def ringH (act : P → P → Act) (room : Nat → Nat) (nil : P) (h : Heap P) (s : Slice) : Option (Heap P × Slice) :=
  match (h.read s).head?, (h.read s).getLast? with
  | some f, some l =>
    match act f l with
    | .append => some (h.append room nil s f)
    | .overwrite => some (h.write s.arr (s.off + (s.len - 1)) f, s)
    | .keep => some (h, s)
  | _, _ => none

/-- mvt/clip.go:178-189 `LintPolygon` with `lintAct`, mvt/write_geometry.go:25-45 `TrimPolygonFloat` and `TrimPolygon` with `trimAct`.
`polygon[pos] = ...` puts the new slice where the old one was. -/
def polygonH (act : P → P → Act) (room : Nat → Nat) (nil : P) : Heap P → List Slice → Option (Heap P × List Slice)
  | h, [] => some (h, [])
  | h, s :: ss =>
    match ringH act room nil h s with
    | none => none
    | some (h1, s') =>
      match polygonH act room nil h1 ss with
      | none => none
      | some (h2, ss') => some (h2, s' :: ss')

/-- mvt/clip.go:191-196 `LintMultiPolygon`, mvt/write_geometry.go:47-59 `TrimMultiPolygonFloat` and `TrimMultiPolygon`. -/
def multiPolygonH (act : P → P → Act) (room : Nat → Nat) (nil : P) : Heap P → List (List Slice) → Option (Heap P × List (List Slice))
  | h, [] => some (h, [])
  | h, p :: ps =>
    match polygonH act room nil h p with
    | none => none
    | some (h1, p') =>
      match multiPolygonH act room nil h1 ps with
      | none => none
      | some (h2, ps') => some (h2, p' :: ps')

end Verif.Alias
