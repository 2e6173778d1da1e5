import Verif.Model.TileID

/-!
# Specification vocabulary for tile ids

`Descends t u`: `u` is reached from `t` by repeatedly taking a member of `Children`, staying within the 63 zoom
levels whose coordinates fit an `int64`.
-/
namespace Verif.Tid

inductive Descends (t : TileID) : TileID → Prop
  | refl : Descends t t
  | step {v u : TileID} : Descends t v → v.Z < 63 → u ∈ children v → Descends t u

end Verif.Tid
