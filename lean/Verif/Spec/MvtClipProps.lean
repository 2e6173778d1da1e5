import Verif.Model.MvtClipProps

/-!
# Specification for C103: what clipping may change in property maps
-/
namespace Verif.Clip
open Verif.Tid

/-- The only change from `h` to `h'` is that the map `r` has the value `v` under "TILEID". -/
def OnlyLabel {V : Type} (h h' : Heap V) (r : Nat) (v : V) : Prop :=
  h' r "TILEID" = some v ∧ ∀ r' k, ¬ (r' = r ∧ k = "TILEID") → h' r' k = h r' k

/-- Lines, polygons and anything else but points. -/
def NotPoints {F : Type} (g : Geom F) : Prop := (∀ p, g ≠ .point p) ∧ ∀ ps, g ≠ .multiPoint ps

end Verif.Clip
