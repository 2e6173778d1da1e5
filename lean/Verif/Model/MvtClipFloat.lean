import Verif.Model.MvtClip
import Verif.Proof.F64
import Mathlib.Order.Basic

/-!
# float64 as the number type of the clipping model

The model of mvt/clip.go (`Model/MvtClip`) is generic in the number type and its operations. Here is the type of float64 numbers with
correctly rounded operations. Not modelled: underflow, overflow, infinities, NaN, the sign of zero, and fused multiply-add (which the
Go compiler uses on some processors, not on amd64).
-/
namespace Verif.Clip
open Verif.F64

/-- A float64 number (Go language, for mvt/clip.go:34-139). -/
structure Dbl where
  val : ℚ
  isF : rnd val = val

theorem Dbl.val_injective : Function.Injective Dbl.val := by
  rintro ⟨a, ha⟩ ⟨b, hb⟩ h
  simp only at h
  subst h
  rfl

/-- The float64 number nearest to a rational number (Go language, for mvt/clip.go:34-139). -/
def Dbl.of (q : ℚ) : Dbl := ⟨rnd q, rnd_idem q⟩

/-- 0 (Go language, for mvt/clip.go:34-139). -/
instance : Zero Dbl := ⟨⟨0, rnd_zero⟩⟩
/-- `+` (Go language, for mvt/clip.go:34-139). -/
instance : Add Dbl := ⟨fun a b => Dbl.of (a.val + b.val)⟩
/-- `-` (Go language, for mvt/clip.go:34-139). -/
instance : Sub Dbl := ⟨fun a b => Dbl.of (a.val - b.val)⟩
/-- `*` (Go language, for mvt/clip.go:34-139). -/
instance : Mul Dbl := ⟨fun a b => Dbl.of (a.val * b.val)⟩
/-- `/` by a number other than 0 (Go language, for mvt/clip.go:34-139; the quotients by 0 at lines 35 and 48 are not used). -/
instance : Div Dbl := ⟨fun a b => Dbl.of (a.val / b.val)⟩
/-- The comparisons (Go language, for mvt/clip.go:92-137). -/
instance : LinearOrder Dbl := LinearOrder.lift' Dbl.val Dbl.val_injective

end Verif.Clip
