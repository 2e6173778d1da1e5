/-! # Specification vocabulary for rectangles -/
namespace Verif.Sprite

/-- A half-open integer rectangle `[x, x+w) × [y, y+h)`. -/
structure Rect where
  x : Int
  y : Int
  w : Int
  h : Int
  deriving DecidableEq, Repr

/-- The pixel `(p, q)` belongs to the rectangle. -/
def Rect.Has (r : Rect) (p q : Int) : Prop := r.x ≤ p ∧ p < r.x + r.w ∧ r.y ≤ q ∧ q < r.y + r.h

/-- No pixel belongs to both. -/
def Rect.Disjoint (a b : Rect) : Prop := ∀ p q, ¬ (a.Has p q ∧ b.Has p q)

/-- The rectangle lies in the sheet `[0,W) × [0,H)`. -/
def Rect.Within (r : Rect) (W H : Int) : Prop := 0 ≤ r.x ∧ 0 ≤ r.y ∧ 0 ≤ r.w ∧ 0 ≤ r.h ∧ r.x + r.w ≤ W ∧ r.y + r.h ≤ H

end Verif.Sprite
