import Verif.Spec.Utf8
import Verif.Spec.JsonText
import Verif.Spec.DocRead

/-!
# JSON as bytes
-/
namespace Verif.JBytes

open Verif.Doc Verif.JText Verif.Utf8 Verif.DocRead

/-- Two JSON values that are the same to a program that decodes them into an `interface{}` (see C98_alike for what this means). -/
def Alike (j j' : J) : Prop := (Dyn.dec j).1 = (Dyn.dec j').1

/-- What a row of keys gives: its bytes are one JSON object, or null; anything else counts as an empty object. -/
def RowValue (raw : List Nat) (j : J) : Prop :=
  (∃ s ms, Repaired raw s ∧ JsonText s (.obj ms) ∧ depth (.obj ms) ≤ 10000 ∧ Alike j (.obj ms)) ∨
  (∃ s, Repaired raw s ∧ JsonText s .null ∧ j = .null) ∨
  ((¬ ∃ s j', Repaired raw s ∧ JsonText s j' ∧ depth j' ≤ 10000 ∧ (j' = .null ∨ ∃ ms, j' = .obj ms)) ∧ j = .obj [])

end Verif.JBytes
