import Verif.Model.MvtClip
import Mathlib.Algebra.Order.Field.Basic

/-!
# Specification vocabulary for clipping

Independent of the clipping code: points of a segment, of a polyline and of a family of polylines, and slabs.
-/
namespace Verif.Clip

variable {F : Type}

/-- The slab `k1 ≤ coordinate ≤ k2` along an axis. -/
def InSlab [LinearOrder F] (ax : Axis) (k1 k2 : F) (p : F × F) : Prop := k1 ≤ coord ax p ∧ coord ax p ≤ k2

/-- The closed box. -/
def InBox [LinearOrder F] (b : Box F) (p : F × F) : Prop := (b.W ≤ p.1 ∧ p.1 ≤ b.E) ∧ (b.S ≤ p.2 ∧ p.2 ≤ b.N)

/-- All vertices of a geometry. -/
def Geom.pts : Geom F → List (F × F)
  | .empty => []
  | .point p => [p]
  | .multiPoint ps => ps
  | .lineString l => l
  | .multiLine ls => ls.flatten
  | .multiLineString ls => ls.flatten
  | .polygon p => p.flatten
  | .multiPolygon ps => ps.flatten.flatten
  | .square w s e n => [(e, n), (w, n), (w, s), (e, s)]

/-- The number of separate stretches of a polyline in the slab: one for each segment that leaves the slab, by its lower or its upper
side, and one more if the polyline ends in the slab. -/
def stretches [LinearOrder F] (ax : Axis) (k1 k2 : F) : List (F × F) → Nat
  | [] => 0
  | [a] => if k1 ≤ coord ax a ∧ coord ax a ≤ k2 then 1 else 0
  | a :: b :: r =>
    (if (k1 ≤ coord ax a ∧ coord ax b < k1) ∨ (coord ax a ≤ k2 ∧ k2 < coord ax b) then 1 else 0) + stretches ax k1 k2 (b :: r)

variable [Field F] [LinearOrder F]

/-- The point of the line through `a` and `b` at parameter `t`. -/
def lerp (a b : F × F) (t : F) : F × F := (a.1 + t * (b.1 - a.1), a.2 + t * (b.2 - a.2))

/-- `p` lies on the closed segment from `a` to `b`. -/
def OnSeg (a b p : F × F) : Prop := ∃ t, 0 ≤ t ∧ t ≤ 1 ∧ p = lerp a b t

/-- `p` lies on the polyline with the given vertices (a single vertex is a point). -/
def OnPath : List (F × F) → F × F → Prop
  | [], _ => False
  | [a], p => p = a
  | a :: b :: r, p => OnSeg a b p ∨ OnPath (b :: r) p

/-- `p` lies on one of the polylines. -/
def OnPaths (ls : List (List (F × F))) (p : F × F) : Prop := ∃ l ∈ ls, OnPath l p

/-- The polylines of a line geometry. -/
def Geom.lines : Geom F → Option (List (List (F × F)))
  | .lineString l => some [l]
  | .multiLineString ls => some ls
  | _ => none

/-- `g` is a line geometry consisting of exactly the part of the polyline `l` in the box `b` (at least one point, and no
polyline without points). -/
def IsPart (l : List (F × F)) (b : Box F) (g : Geom F) : Prop :=
  ∃ ls, g.lines = some ls ∧ ls ≠ [] ∧ (∀ m ∈ ls, m ≠ []) ∧ ∀ p, OnPaths ls p ↔ OnPath l p ∧ InBox b p

/-- The polyline never turns back: along it the first coordinate does not decrease, or does not increase, and likewise the second. -/
def Steady (l : List (F × F)) : Prop :=
  (l.Pairwise (fun a b => a.1 ≤ b.1) ∨ l.Pairwise (fun a b => b.1 ≤ a.1)) ∧
  (l.Pairwise (fun a b => a.2 ≤ b.2) ∨ l.Pairwise (fun a b => b.2 ≤ a.2))

/-- `b` is the least box with all the points. -/
def IsBoundingBox (l : List (F × F)) (b : Box F) : Prop :=
  (∀ p ∈ l, InBox b p) ∧ (∃ p ∈ l, p.1 = b.W) ∧ (∃ p ∈ l, p.1 = b.E) ∧ (∃ p ∈ l, p.2 = b.S) ∧ (∃ p ∈ l, p.2 = b.N)

end Verif.Clip
