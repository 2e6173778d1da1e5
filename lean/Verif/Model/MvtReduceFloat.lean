import Verif.Model.MvtReduce
import Verif.Model.MvtClipFloat

/-!
# float64 as the number type of the model of `mvt/simplify.go` and `mvt/feature_reduce.go`

The functions of `Model/MvtReduce` are generic in the number type; at the type `Dbl` every operation is rounded to float64. Not
modelled: underflow, overflow, infinities, NaN and fused multiply-add.
-/
namespace Verif.Reduce
open Verif.F64 Verif.Clip

/-- the constant 1 (mvt/simplify.go:15). -/
instance : One Dbl := ⟨⟨1, by have := rnd_int 1 (by norm_num); exact_mod_cast this⟩⟩

/-- `float64(len(…))` (mvt/feature_reduce.go:61). -/
def lenF (n : Nat) : Dbl := Dbl.of n

end Verif.Reduce
