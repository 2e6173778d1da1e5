import Verif.Props.Sprite
import Verif.Proof.F64
import Mathlib.Tactic.Linarith
import Mathlib.Tactic.Positivity
import Mathlib.Tactic.FieldSimp

/-!
# C85: the sizes of sprites in float64

`ScaleTo` multiplies a size with a quotient that is rounded to float64 and cuts off the fraction.
-/
namespace Verif.Sprite
open Verif.Go Verif.F64

theorem rnd_cast_int {m : ℤ} (h0 : 0 ≤ m) (h : m ≤ 2 ^ 53) : rnd (m : ℚ) = m :=
  rnd_int m (by rw [abs_of_nonneg h0]; exact h)

/-- the two roundings of `ScaleTo` move the value by little -/
theorem scale_err {w ratio own : Int} (hw : 0 ≤ w) (hr : 0 ≤ ratio) (ho : 0 < own) (hw' : w ≤ 2 ^ 53) (hr' : ratio ≤ 2 ^ 53)
    (ho' : own ≤ 2 ^ 53) (hwr : w * ratio < 2 ^ 51) :
    |rnd (rnd w * rnd (rnd ratio / rnd own)) - (w * ratio : ℚ) / own| * own < 1 := by
  rw [rnd_cast_int hw hw', rnd_cast_int hr hr', rnd_cast_int ho.le ho']
  have ho0 : (0 : ℚ) < own := by exact_mod_cast ho
  have hw0 : (0 : ℚ) ≤ w := by exact_mod_cast hw
  have hr0 : (0 : ℚ) ≤ ratio := by exact_mod_cast hr
  have hwr' : (w : ℚ) * ratio < 2 ^ 51 := by exact_mod_cast hwr
  have e1 := rnd_err ((ratio : ℚ) / own)
  have hq : 0 ≤ (ratio : ℚ) / own := div_nonneg hr0 ho0.le
  rw [abs_of_nonneg hq] at e1
  generalize rnd ((ratio : ℚ) / own) = s at e1 ⊢
  have e2 := rnd_err ((w : ℚ) * s)
  generalize rnd ((w : ℚ) * s) = x at e2 ⊢
  have hV : (w : ℚ) * ratio / own = w * (ratio / own) := by ring
  set q : ℚ := (ratio : ℚ) / own with hqd
  have hqo : q * own = ratio := by rw [hqd]; field_simp
  have a1 := abs_le.mp e1
  have hwq : 0 ≤ (w : ℚ) * q := mul_nonneg hw0 hq
  have hws : |(w : ℚ) * s| ≤ w * q * (1 + 1 / 2 ^ 53) := by
    rw [abs_mul, abs_of_nonneg hw0]
    have : |s| ≤ q * (1 + 1 / 2 ^ 53) := by
      rw [abs_le]
      constructor
      · nlinarith [a1.1]
      · linarith [a1.2]
    nlinarith
  have hd : |(w : ℚ) * s - w * q| ≤ w * q / 2 ^ 53 := by
    rw [← mul_sub, abs_mul, abs_of_nonneg hw0]
    have := mul_le_mul_of_nonneg_left e1 hw0
    linarith
  have tot : |x - w * q| ≤ w * q * (1 / 2 ^ 51) := by
    have t := abs_sub_le x (w * s) (w * q)
    have e3 : |(w : ℚ) * s| / 2 ^ 53 ≤ w * q * (1 + 1 / 2 ^ 53) / 2 ^ 53 := by
      exact div_le_div_of_nonneg_right hws (by positivity)
    have : w * q * (1 + 1 / 2 ^ 53) / 2 ^ 53 + w * q / 2 ^ 53 ≤ w * q * (1 / 2 ^ 51) := by
      have : (1 + 1 / 2 ^ 53 : ℚ) / 2 ^ 53 + 1 / 2 ^ 53 ≤ 1 / 2 ^ 51 := by norm_num
      calc _ = w * q * ((1 + 1 / 2 ^ 53 : ℚ) / 2 ^ 53 + 1 / 2 ^ 53) := by ring
        _ ≤ _ := mul_le_mul_of_nonneg_left this hwq
    linarith
  rw [hV]
  calc |x - w * q| * own ≤ w * q * (1 / 2 ^ 51) * own := mul_le_mul_of_nonneg_right tot ho0.le
    _ = (w * ratio) * (1 / 2 ^ 51) := by rw [← hqo]; ring
    _ < 2 ^ 51 * (1 / 2 ^ 51) := mul_lt_mul_of_pos_right hwr' (by norm_num)
    _ = 1 := by norm_num

theorem scale_nonneg {w ratio own : Int} (hw : 0 ≤ w) (hr : 0 ≤ ratio) (ho : 0 < own) :
    0 ≤ rnd (rnd w * rnd (rnd ratio / rnd own)) := by
  have n : ∀ q : ℚ, 0 ≤ q → 0 ≤ rnd q := by
    intro q h
    have := rnd_mono h
    rwa [rnd_zero] at this
  have hw0 : (0 : ℚ) ≤ w := by exact_mod_cast hw
  have hr0 : (0 : ℚ) ≤ ratio := by exact_mod_cast hr
  have ho0 : (0 : ℚ) ≤ own := by exact_mod_cast ho.le
  exact n _ (mul_nonneg (n _ hw0) (n _ (div_nonneg (n _ hr0) (n _ ho0))))

/-- C85: the size of a sprite is the exact size with the fraction cut off, except that where the exact size is a whole number it
may come out one smaller. -/
theorem C85_size (w ratio own : Int) (hw : 0 ≤ w) (hr : 0 ≤ ratio) (ho : 0 < own) (hw' : w ≤ 2 ^ 53) (hr' : ratio ≤ 2 ^ 53)
    (ho' : own ≤ 2 ^ 53) (hwr : w * ratio < 2 ^ 51) :
    (¬ own ∣ w * ratio → scaleDimF w ratio own = w * ratio / own) ∧
    (own ∣ w * ratio → scaleDimF w ratio own = w * ratio / own ∨ scaleDimF w ratio own = w * ratio / own - 1) := by
  have he := scale_err hw hr ho hw' hr' ho' hwr
  have hn := scale_nonneg hw hr ho
  unfold scaleDimF truncF
  rw [if_pos hn]
  generalize rnd (rnd w * rnd (rnd ratio / rnd own)) = x at he hn ⊢
  have ho0 : (0 : ℚ) < own := by exact_mod_cast ho
  rw [← abs_of_pos ho0, ← abs_mul, sub_mul, abs_of_pos ho0, div_mul_cancel₀ _ ho0.ne', abs_lt] at he
  have hdm := Int.mul_ediv_add_emod (w * ratio) own
  have hm0 := Int.emod_nonneg (w * ratio) ho.ne'
  have hm1 := Int.emod_lt_of_pos (w * ratio) ho
  set k := w * ratio / own
  set m := w * ratio % own
  have hdq : (own : ℚ) * k + m = w * ratio := by exact_mod_cast hdm
  constructor
  · intro hnd
    have hm : 1 ≤ m := by
      rcases eq_or_lt_of_le hm0 with h | h
      · exact absurd (Int.dvd_of_emod_eq_zero h.symm) hnd
      · omega
    have hmq : (1 : ℚ) ≤ m := by exact_mod_cast hm
    have hmq' : (m : ℚ) ≤ own - 1 := by exact_mod_cast (by omega : m ≤ own - 1)
    rw [Int.floor_eq_iff]
    constructor
    · by_contra hc
      push Not at hc
      nlinarith
    · by_contra hc
      push Not at hc
      nlinarith
  · intro hdv
    have hm : m = 0 := Int.emod_eq_zero_of_dvd hdv
    rw [hm] at hdq
    have : (1 : ℚ) ≤ own := by exact_mod_cast ho
    have l : (k : ℚ) - 1 < x := by
      by_contra hc
      push Not at hc
      push_cast at hdq
      nlinarith
    have u : x < (k : ℚ) + 1 := by
      by_contra hc
      push Not at hc
      push_cast at hdq
      nlinarith
    by_cases h : (k : ℚ) ≤ x
    · left
      rw [Int.floor_eq_iff]; exact ⟨h, u⟩
    · right
      push Not at h
      rw [Int.floor_eq_iff]
      push_cast
      exact ⟨l.le, by linarith⟩

/-- C85: the size is exact for images whose own pixel ratio is a power of two (1, 2, 4, ...) or divides the wanted one. -/
theorem C85_exact (w ratio own : Int) (hw : 0 ≤ w) (hr : 0 ≤ ratio) (ho : 0 < own) (hw' : w ≤ 2 ^ 53) (hr' : ratio ≤ 2 ^ 53)
    (ho' : own ≤ 2 ^ 53) (hwr : w * ratio ≤ 2 ^ 53) (h : (∃ k : Nat, own = 2 ^ k) ∨ own ∣ ratio) :
    scaleDimF w ratio own = w * ratio / own := by
  have ho0 : (0 : ℚ) < own := by exact_mod_cast ho
  have key : rnd (rnd w * rnd (rnd ratio / rnd own)) = (w * ratio : ℚ) / own := by
    rw [rnd_cast_int hw hw', rnd_cast_int hr hr', rnd_cast_int ho.le ho']
    rcases h with ⟨k, rfl⟩ | ⟨c, rfl⟩
    · have e : ∀ m : ℤ, (m : ℚ) / ((2 ^ k : ℤ) : ℚ) = m * pow2 (-(k : ℤ)) := by
        intro m
        rw [pow2_eq, zpow_neg, zpow_natCast]; push_cast; rw [div_eq_mul_inv]
      rw [e, rnd_exact ratio _ (by rw [abs_of_nonneg hr]; exact hr')]
      have e2 : (w : ℚ) * (ratio * pow2 (-(k : ℤ))) = ((w * ratio : ℤ) : ℚ) * pow2 (-(k : ℤ)) := by push_cast; ring
      rw [e2, rnd_exact _ _ (by rw [abs_of_nonneg (mul_nonneg hw hr)]; exact hwr), ← e]
      push_cast; rfl
    · have hc0 : 0 ≤ c := nonneg_of_mul_nonneg_right hr ho
      have hc1 : c ≤ own * c := by nlinarith
      have e : ((own * c : ℤ) : ℚ) / own = (c : ℤ) := by push_cast; field_simp
      rw [e, rnd_cast_int hc0 (hc1.trans hr')]
      have e2 : (w : ℚ) * (c : ℚ) = ((w * c : ℤ) : ℚ) := by push_cast; ring
      have hwc : w * c ≤ w * (own * c) := mul_le_mul_of_nonneg_left hc1 hw
      rw [e2, rnd_cast_int (mul_nonneg hw hc0) (hwc.trans hwr)]
      push_cast; field_simp
  unfold scaleDimF truncF
  rw [key, if_pos (div_nonneg (by exact_mod_cast mul_nonneg hw hr) ho0.le)]
  have := Rat.floor_intCast_div_natCast (w * ratio) own.toNat
  rw [show ((own.toNat : ℕ) : ℚ) = own by exact_mod_cast congrArg (Int.cast (R := ℚ)) (Int.toNat_of_nonneg ho.le)] at this
  push_cast at this
  rw [this, Int.toNat_of_nonneg ho.le]

/-- C85: a larger image never gets a smaller sprite. -/
theorem C85_monotone (w w' ratio own : Int) (hw : 0 ≤ w) (h : w ≤ w') (hr : 0 ≤ ratio) (ho : 0 < own) :
    scaleDimF w ratio own ≤ scaleDimF w' ratio own := by
  unfold scaleDimF truncF
  rw [if_pos (scale_nonneg hw hr ho), if_pos (scale_nonneg (hw.trans h) hr ho)]
  apply Int.floor_le_floor
  apply rnd_mono
  apply mul_le_mul_of_nonneg_right
  · exact rnd_mono (by exact_mod_cast h)
  · have n : ∀ q : ℚ, 0 ≤ q → 0 ≤ rnd q := by
      intro q h
      have := rnd_mono h
      rwa [rnd_zero] at this
    exact n _ (div_nonneg (n _ (by exact_mod_cast hr)) (n _ (by exact_mod_cast ho.le)))

/-- C85: an image that already has the wanted pixel ratio keeps its size. -/
theorem C85_same_ratio (t : Texture) (hw : 0 ≤ t.width ∧ t.width < 2 ^ 31) (hh : 0 ≤ t.height ∧ t.height < 2 ^ 31)
    (hp : 0 < t.pixelRatio ∧ t.pixelRatio < 2 ^ 20) : scaleToF t.pixelRatio t = (t.width, t.height) := by
  have key : ∀ w : Int, 0 ≤ w → w < 2 ^ 31 → scaleDimF w t.pixelRatio t.pixelRatio = w := by
    intro w h0 h1
    rw [C85_exact w _ _ h0 hp.1.le hp.1 (by omega) (by omega) (by omega) (by nlinarith) (Or.inr dvd_rfl)]
    exact Int.mul_ediv_cancel _ hp.1.ne'
  unfold scaleToF
  rw [key _ hw.1 hw.2, key _ hh.1 hh.2]

/-- C85: so `GenerateSprite`, with its float64 sizes, makes a good sheet: every image of a distinct name gets its place, no two
overlap, and the sheet is just large enough, for images of up to 2^28 pixels a side and pixel ratios up to 8. -/
theorem C85_generateSprite (ratio : Int) (textures : List Texture) (sorted : List Block) (hd : (textures.map Texture.name).Nodup)
    (hr : 0 ≤ ratio ∧ ratio < 8)
    (hsz : ∀ t ∈ textures, 0 ≤ t.width ∧ t.width < 2 ^ 28 ∧ 0 ≤ t.height ∧ t.height < 2 ^ 28 ∧ 0 < t.pixelRatio ∧ t.pixelRatio < 2 ^ 53)
    (hsort : SortResult (blocksOf (scaleToF ratio) textures) sorted) :
    ∃ set W H, generateSprite (scaleToF ratio) ratio textures sorted true = some (set, some (W, H)) ∧
      GoodSheet (scaleToF ratio) ratio textures set W H ∧
      generateSprite (scaleToF ratio) ratio textures sorted false = some (set, none) := by
  refine C15_generateSprite (scaleToF ratio) ratio textures sorted hd ?_ hsort
  have key : ∀ w own : Int, 0 ≤ w → w < 2 ^ 28 → 0 < own → own < 2 ^ 53 →
      0 ≤ scaleDimF w ratio own ∧ scaleDimF w ratio own < 2147483648 := by
    intro w own h0 h1 h2 h3
    have hwr : w * ratio < 2147483648 := by nlinarith
    have hn : 0 ≤ w * ratio := mul_nonneg h0 hr.1
    have hq : w * ratio / own ≤ w * ratio := Int.ediv_le_self _ hn
    constructor
    · unfold scaleDimF truncF
      rw [if_pos (scale_nonneg h0 hr.1 h2)]
      exact Int.floor_nonneg.mpr (scale_nonneg h0 hr.1 h2)
    · obtain ⟨a, b⟩ := C85_size w ratio own h0 hr.1 h2 (by omega) (by omega) h3.le (by omega)
      by_cases hdv : own ∣ w * ratio
      · rcases b hdv with e | e <;> omega
      · have := a hdv; omega
  intro t ht
  obtain ⟨a, b, c, d, e, f⟩ := hsz t ht
  obtain ⟨k1, k2⟩ := key t.width t.pixelRatio a b e f
  obtain ⟨k3, k4⟩ := key t.height t.pixelRatio c d e f
  exact ⟨k1, k2, k3, k4⟩

/-- C85: the whole number is really missed in places: 45 pixels at ratio 5, wanted at ratio 7, are 63, but the sprite is 62 wide.
One of 90 pixels at ratio 2 wanted at 1 is 45, as it should be. -/
theorem C85_example : scaleToF 7 ⟨"a", 45, 50, 5⟩ = (62, 70) ∧ (45 * 7 : Int) / 5 = 63 ∧ scaleToF 1 ⟨"b", 90, 61, 2⟩ = (45, 30) := by
  decide +kernel

end Verif.Sprite
