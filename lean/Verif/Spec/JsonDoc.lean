import Verif.Spec.JsonText
import Verif.Spec.Doc

/-! # Documents as texts -/
namespace Verif.JText

open Verif.Doc

/-- What strconv and encoding/json promise of the way they print a float64: a JSON number that reads as the number. -/
structure Prints (short : ℚ → Str) : Prop where
  back : Shortest short
  number : ∀ q, Float64 q → Number (short q)

mutual
/-- How deeply lists and maps are nested in what an `interface{}` holds. -/
def nesting : Dyn → Nat
  | .list l => nestingL l + 1
  | .map l => nestingM l + 1
  | _ => 0
/-- the deepest element -/
def nestingL : List Dyn → Nat
  | [] => 0
  | d :: ds => max (nesting d) (nestingL ds)
/-- the deepest entry -/
def nestingM : List (Str × Dyn) → Nat
  | [] => 0
  | (_, d) :: ds => max (nesting d) (nestingM ds)
end

/-- No value in the layer data is nested more than 9990 deep. -/
structure Shallow (d : LayerData) : Prop where
  fields : ∀ l, d.vectorLayers = some (some l) → ∀ v ∈ l, ∀ m, v.fields = some m → ∀ e ∈ m, nesting e.2 ≤ 9990
  values : ∀ t, d.tileStats = some t → ∀ ls, t.layers = some ls → ∀ l ∈ ls, ∀ as, l.attributes = some as → ∀ a ∈ as,
    ∀ vs, a.values = some vs → ∀ x ∈ vs, nesting x ≤ 9990

end Verif.JText
