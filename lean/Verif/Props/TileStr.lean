import Verif.Props.TileID

/-!
# C07: `ToString`
-/
namespace Verif.Tid
open Verif.Go

theorem dot_notin_itoa (n : Int) : '.' ∉ itoa n := by
  intro h
  rcases itoa_mem h with e | e
  · exact absurd e (by decide)
  · exact absurd e (by decide)

/-- C07: the text of `ToString` has three fields between dots, which parse back to the coordinates and the zoom. -/
theorem C07_toString_fields (t : TileID) (hv : t.Valid) :
    ∃ a b c, split '.' (toStr t) = [a, b, c] ∧ parseInt a 10 = .ok t.X ∧ parseInt b 10 = .ok t.Y ∧
      parseUint c 10 = .ok t.Z := by
  have hz : '.' ∉ Nat.toDigits 10 t.Z := by
    intro h
    exact absurd (toDigits_isDigit h) (by decide)
  refine ⟨itoa t.X, itoa t.Y, Nat.toDigits 10 t.Z, ?_, parseInt_itoa_10 _ hv.1, parseInt_itoa_10 _ hv.2.1,
    parseUint_toDigits_10 _ hv.2.2⟩
  unfold toStr
  rw [List.append_assoc, List.cons_append, split_append _ _ _ (dot_notin_itoa _),
    split_append _ _ _ (dot_notin_itoa _), split_no_sep _ _ hz]

/-- C07: different tiles have different `ToString` texts. -/
theorem C07_toString_injective (t u : TileID) (ht : t.Valid) (hu : u.Valid) (h : toStr t = toStr u) : t = u := by
  obtain ⟨a, b, c, e, h1, h2, h3⟩ := C07_toString_fields t ht
  obtain ⟨a', b', c', e', g1, g2, g3⟩ := C07_toString_fields u hu
  rw [h, e'] at e
  injection e with e1 e
  injection e with e2 e
  injection e with e3 _
  rw [e1, h1] at g1
  rw [e2, h2] at g2
  rw [e3, h3] at g3
  injection g1 with g1
  injection g2 with g2
  injection g3 with g3
  cases t; cases u
  simp only at g1 g2 g3
  rw [g1, g2, g3]

example : toStr ⟨-5, 12, 3⟩ = "-5.12.3".toList := by decide +kernel

end Verif.Tid
