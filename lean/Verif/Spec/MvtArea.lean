import Verif.Spec.MvtClip
import Mathlib.Algebra.Order.Group.Abs

/-!
# Specification vocabulary for areas

The inside of a polygon by the even-odd rule: the number of edges met by a ray from the point. Independent of the clipping code.
-/
namespace Verif.Clip

variable {F : Type}

/-- The other coordinate. -/
def oth : Axis → F × F → F
  | .x, p => p.2
  | .y, p => p.1

variable [Field F] [LinearOrder F]

/-- The ray from `p` in the direction of growing `oth ax` meets the edge `a b`: `p`'s coordinate lies between those of the ends (one
end counted, the other not), and the edge's point with that coordinate is beyond `p`. -/
def meets (ax : Axis) (p a b : F × F) : Bool :=
  decide (coord ax a ≤ coord ax p) != decide (coord ax b ≤ coord ax p) &&
    decide (oth ax p < oth ax a + (coord ax p - coord ax a) / (coord ax b - coord ax a) * (oth ax b - oth ax a))

/-- Whether the number of edges of a polyline that the ray meets is odd. -/
def parity (ax : Axis) (p : F × F) : List (F × F) → Bool
  | a :: b :: r => meets ax p a b != parity ax p (b :: r)
  | _ => false

/-- A ring with its first vertex repeated at the end: the closed curve it bounds (a repetition already there does no harm). -/
def closed : List (F × F) → List (F × F)
  | [] => []
  | f :: r => f :: r ++ [f]

/-- Inside a polygon: the ray meets the rings an odd number of times. -/
def inside (ax : Axis) (p : F × F) (rings : List (List (F × F))) : Bool :=
  rings.foldr (fun r s => parity ax p (closed r) != s) false

/-- Inside one of several polygons. -/
def insideAny (ax : Axis) (p : F × F) (ps : List (List (List (F × F)))) : Bool := ps.any (inside ax p)

/-- The rings of a polygonal geometry (of the marker square its four corners). -/
def Geom.rings : Geom F → List (List (F × F))
  | .polygon p => p
  | .multiPolygon ps => ps.flatten
  | .square w s e n => [[(e, n), (w, n), (w, s), (e, s)]]
  | _ => []

/-- Whether a point is inside a polygonal geometry. -/
def Geom.covers (ax : Axis) (p : F × F) : Geom F → Bool
  | .polygon r => inside ax p r
  | .multiPolygon ps => insideAny ax p ps
  | .square w s e n => inside ax p [[(e, n), (w, n), (w, s), (e, s)]]
  | _ => false

/-- Polygons whose rings all have vertices. -/
def Geom.IsArea : Geom F → Prop
  | .polygon r => ∀ x ∈ r, x ≠ []
  | .multiPolygon ps => ∀ r ∈ ps, ∀ x ∈ r, x ≠ []
  | _ => False

/-- More than `m` inside the slab. -/
def DeepIn (ax : Axis) (k1 k2 m : F) (p : F × F) : Prop := k1 + m < coord ax p ∧ coord ax p + m < k2

/-- More than `m` inside the box. -/
def DeepInBox (b : Box F) (m : F) (p : F × F) : Prop := DeepIn .x b.W b.E m p ∧ DeepIn .y b.S b.N m p

/-- At most `m` away in either coordinate. -/
def Near (m : F) (p q : F × F) : Prop := |q.1 - p.1| ≤ m ∧ |q.2 - p.2| ≤ m

/-- More than `m` away from every edge of the rings. -/
def FarFrom (m : F) (rings : List (List (F × F))) (p : F × F) : Prop :=
  ∀ r ∈ rings, ∀ q, OnPath (closed r) q → ¬ Near m p q

/-- `ClipFeature` takes the geometry for the whole tile with box `b`: it is its own marker for such a tile, or a polygon of one ring of 4 or
5 points whose bounding box has its sides closer than `p7` to those of `b` (whatever its shape). -/
def LooksLikeTile (p7 : F) (b : Box F) (g : Geom F) : Prop :=
  (∃ w s e n, g = .square w s e n) ∨
  ∃ r bb, g = .polygon [r] ∧ (r.length = 4 ∨ r.length = 5) ∧ IsBoundingBox r bb ∧
    |bb.W - b.W| < p7 ∧ |bb.E - b.E| < p7 ∧ |bb.N - b.N| < p7 ∧ |bb.S - b.S| < p7

end Verif.Clip
