import Verif.Model.Client
import Verif.Model.StyleColor
import Verif.Model.FontBuilder
import Verif.Props.MvtProject

/-!
# Library functions in the model against their published definitions

The models of net/url, of Go's strings and of the rounding helper, compared with specifications written another way.
-/
namespace Verif.Library

open Verif.Client in
/-- **C65.** The bytes left alone in a query are exactly the unreserved ones of RFC 3986: letters, digits, and - . _ ~. -/
theorem C65_unreserved (b : Byte) : unreserved b = true ↔
    Char.ofNat b.val ∈ "ABCDEFGHIJKLMNOPQRSTUVWXYZabcdefghijklmnopqrstuvwxyz0123456789-._~".toList := by
  revert b
  decide +kernel

open Verif.Client in
/-- **C65.** A hexadecimal digit of an escape is one of 0-9, A-F, a-f and stands for its place in the row; nothing else is accepted. -/
theorem C65_unhex (b : Byte) (v : Nat) : unhex b = some v ↔
    v < 16 ∧ ("0123456789ABCDEF".toList[v]? = some (Char.ofNat b.val) ∨ "0123456789abcdef".toList[v]? = some (Char.ofNat b.val)) := by
  constructor
  · have h : ∀ b : Byte, ∀ v : Fin 256, unhex b = some v.val →
        v.val < 16 ∧ ("0123456789ABCDEF".toList[v.val]? = some (Char.ofNat b.val) ∨
          "0123456789abcdef".toList[v.val]? = some (Char.ofNat b.val)) := by decide +kernel
    have hv : ∀ b : Byte, (unhex b).getD 0 < 256 := by decide +kernel
    intro e
    have h2 := hv b
    rw [e] at h2
    exact h b ⟨v, h2⟩ e
  · rintro ⟨hv, h⟩
    have hh : ∀ b : Byte, ∀ v : Fin 16, ("0123456789ABCDEF".toList[v.val]? = some (Char.ofNat b.val) ∨
        "0123456789abcdef".toList[v.val]? = some (Char.ofNat b.val)) → unhex b = some v.val := by decide +kernel
    exact hh b ⟨v, hv⟩ h

open Verif.Style in
/-- **C52.** The bytes of a string the colour parsers look at are its UTF-8 bytes as Lean's own library defines them. -/
theorem C52_utf8 (c : Char) : utf8 c = (String.utf8EncodeChar c).map UInt8.toNat := by
  have hc : c.toNat < 1114112 := by
    have := c.valid
    unfold Char.toNat
    rcases this with h | h
    · have : c.val.toNat < 55296 := h
      omega
    · exact h.2
  unfold utf8 String.utf8EncodeChar
  have e : c.val.toNat = c.toNat := rfl
  simp only [e]
  generalize c.toNat = n at hc
  simp only [apply_ite (List.map UInt8.toNat), List.map_cons, List.map_nil, UInt8.toNat_ofNat']
  split_ifs <;> first | omega | (simp only [List.cons.injEq, and_true]; omega)

open Verif.Font in
/-- **C79.** The halving rounds to the nearest, ties away from zero. -/
theorem C79_half (n k : Int) : roundHalf n = k ↔ |2 * k - n| ≤ 1 ∧ (|2 * k - n| = 1 → |n| ≤ |2 * k|) := by
  unfold roundHalf
  constructor
  · rintro rfl
    split <;> constructor <;> simp only [abs_le, abs_eq_max_neg, max_def] <;> (try intro) <;> split_ifs at * <;> omega
  · rintro ⟨h1, h2⟩
    simp only [abs_eq_max_neg, max_def] at h1 h2
    split_ifs at * <;> omega

/-- **C35.** `NewCursor` is the cursor with an extent of 4096: the tile's corners are (0, 0) and (4096, 4096). -/
theorem C35_default (junk : ℝ → Int) (t : Tid.TileID) (hg : t.InGrid) (x y : Int) (hx : 0 ≤ x ∧ x ≤ 4096) (hy : 0 ≤ y ∧ y ≤ 4096) :
    MvtProj.singlePoint junk (MvtProj.newCursor t) (MvtProj.toLonLat t 4096 (x, y)) = (x, y) := by
  exact MvtProj.C35_roundtrip_inside junk t 4096 hg (by decide) (by decide) x y hx hy

end Verif.Library
