import Verif.Props.Raster
import Verif.Proof.F64

/-! # C21, C22 with float64 arithmetic: how much rounding costs -/
namespace Verif.Raster
open Verif.F64

/-- From a float64 `val` on, `MapboxPacker.Pack` computes exactly. -/
theorem packVal_float (v : ℚ) (hv : IsF v) (h0 : 0 ≤ v) (h1 : v < 16777216) : packMapboxVal rnd v = packMapboxVal id v := by
  have a1 : IsF (v / 256) := hv.div256
  have n1 : 0 ≤ v / 256 := by positivity
  have f1 : 0 ≤ ⌊v / 256⌋ ∧ ⌊v / 256⌋ < 65536 := ⟨Int.floor_nonneg.mpr n1, by rw [Int.floor_lt]; push_cast; linarith⟩
  have i1 : IsF (fl (v / 256)) := isF_int _ (by rw [abs_of_nonneg f1.1]; omega)
  have n2' : 0 ≤ fl (v / 256) := Int.cast_nonneg f1.1
  have n2 : 0 ≤ fl (v / 256) / 256 := by positivity
  have a2 : IsF (fl (v / 256) / 256) := i1.div256
  have f2 : 0 ≤ ⌊fl (v / 256) / 256⌋ ∧ ⌊fl (v / 256) / 256⌋ < 65536 := by
    refine ⟨Int.floor_nonneg.mpr n2, ?_⟩
    rw [Int.floor_lt]
    have : fl (v / 256) < ((65536 : ℤ) : ℚ) := Int.cast_lt.mpr f1.2
    push_cast at this
    push_cast; linarith
  have i2 : IsF (fl (fl (v / 256) / 256)) := isF_int _ (by rw [abs_of_nonneg f2.1]; omega)
  have n3' : 0 ≤ fl (fl (v / 256) / 256) := Int.cast_nonneg f2.1
  have n3 : 0 ≤ fl (fl (v / 256) / 256) / 256 := by positivity
  have a3 : IsF (fl (fl (v / 256) / 256) / 256) := i2.div256
  have d : ∀ w : ℚ, IsF w → 0 ≤ w → rnd (rnd (w - fl w) * 256) = (w - fl w) * 256 := by
    intro w hw h0
    have e : rnd (w - fl w) = w - fl w := (hw.frac h0).rnd_eq
    rw [e]; exact ((hw.frac h0).mul256).rnd_eq
  simp only [packMapboxVal, id]
  rw [a1.rnd_eq, a2.rnd_eq, a3.rnd_eq, d _ a1 n1, d _ a2 n2, d _ a3 n3]

/-- `val` is off by less than 10^-8. -/
theorem mapboxVal_float (h : ℚ) (h0 : -10000 ≤ h) (h1 : h ≤ 16677215 / 10) :
    |mapboxVal rnd h - (h + 10000) * 10| ≤ 1 / 10 ^ 8 ∧ 0 ≤ mapboxVal rnd h ∧ mapboxVal rnd h < 16777216 := by
  have c3 : rnd 10000 = 10000 := by decide +kernel
  have c2 : rnd (1 / 10) = 3602879701896397 / 36028797018963968 := by decide +kernel
  simp only [mapboxVal, unpackMapbox, c3, c2]
  have e1 := rnd_err (h + 10000)
  have p1 : 0 ≤ rnd (h + 10000) := by
    have := rnd_mono (show (0 : ℚ) ≤ h + 10000 by linarith); rwa [rnd_zero] at this
  rw [abs_of_nonneg (show (0:ℚ) ≤ h + 10000 by linarith)] at e1
  set x := rnd (h + 10000)
  have e2 := rnd_err (x / (3602879701896397 / 36028797018963968))
  have p2 : 0 ≤ rnd (x / (3602879701896397 / 36028797018963968)) := by
    have := rnd_mono (show (0 : ℚ) ≤ x / (3602879701896397 / 36028797018963968) by positivity); rwa [rnd_zero] at this
  rw [abs_of_nonneg (show (0:ℚ) ≤ x / (3602879701896397 / 36028797018963968) by positivity)] at e2
  set y := rnd (x / (3602879701896397 / 36028797018963968))
  rw [abs_le] at e1 e2
  have e2' : y - x * (36028797018963968 / 3602879701896397) ≤ x * (36028797018963968 / 3602879701896397) / 2 ^ 53 ∧
      -(x * (36028797018963968 / 3602879701896397) / 2 ^ 53) ≤ y - x * (36028797018963968 / 3602879701896397) := by
    have : x / (3602879701896397 / 36028797018963968) = x * (36028797018963968 / 3602879701896397) := by
      rw [div_div_eq_mul_div, mul_div_assoc]
    rw [this] at e2; exact ⟨e2.2, e2.1⟩
  obtain ⟨e1a, e1b⟩ := e1
  obtain ⟨e2a, e2b⟩ := e2'
  norm_num at e1a e1b e2a e2b
  refine ⟨?_, p2, by linarith⟩
  rw [abs_le]
  constructor <;> norm_num <;> linarith

/-- `Get` of a pixel is off by at most 10^-8 m from the height its bytes spell. -/
theorem decode_float (p : Px) :
    |decode rnd (unpackMapbox rnd) p - mapboxHeight (code p)| ≤ 1 / 10 ^ 8 := by
  have hr : (p.r.val : ℚ) ≤ 255 := by exact_mod_cast Nat.le_of_lt_succ p.r.isLt
  have hg : (p.g.val : ℚ) ≤ 255 := by exact_mod_cast Nat.le_of_lt_succ p.g.isLt
  have hb : (p.b.val : ℚ) ≤ 255 := by exact_mod_cast Nat.le_of_lt_succ p.b.isLt
  have hr0 : (0 : ℚ) ≤ (p.r.val : ℚ) := by positivity
  have hg0 : (0 : ℚ) ≤ (p.g.val : ℚ) := by positivity
  have hb0 : (0 : ℚ) ≤ (p.b.val : ℚ) := by positivity
  have c0 : rnd (65536 / 10) = 7205759403792794 / 1099511627776 := by decide +kernel
  have c1 : rnd (256 / 10) = 3602879701896397 / 140737488355328 := by decide +kernel
  have c2 : rnd (1 / 10) = 3602879701896397 / 36028797018963968 := by decide +kernel
  have c3 : rnd 10000 = 10000 := by decide +kernel
  simp only [decode, unpackMapbox, c0, c1, c2, c3, mapboxHeight, code]
  push_cast
  generalize (p.r.val : ℚ) = r at *
  generalize (p.g.val : ℚ) = g at *
  generalize (p.b.val : ℚ) = b at *
  have e1 := rnd_err (r * (7205759403792794 / 1099511627776))
  have e2 := rnd_err (g * (3602879701896397 / 140737488355328))
  have e3 := rnd_err (b * (3602879701896397 / 36028797018963968))
  rw [abs_of_nonneg (show 0 ≤ r * (7205759403792794 / 1099511627776) by positivity)] at e1
  rw [abs_of_nonneg (show 0 ≤ g * (3602879701896397 / 140737488355328) by positivity)] at e2
  rw [abs_of_nonneg (show 0 ≤ b * (3602879701896397 / 36028797018963968) by positivity)] at e3
  generalize rnd (r * (7205759403792794 / 1099511627776)) = x at *
  generalize rnd (g * (3602879701896397 / 140737488355328)) = y at *
  generalize rnd (b * (3602879701896397 / 36028797018963968)) = z at *
  rw [abs_le] at e1 e2 e3
  obtain ⟨e1a, e1b⟩ := e1
  obtain ⟨e2a, e2b⟩ := e2
  obtain ⟨e3a, e3b⟩ := e3
  norm_num at e1a e1b e2a e2b e3a e3b
  have e4 := rnd_err (x + y)
  have b4 : |x + y| ≤ 2000000 := by rw [abs_le]; constructor <;> linarith
  generalize rnd (x + y) = s at *
  have e4' : |s - (x + y)| ≤ 2000000 / 2 ^ 53 := e4.trans (by gcongr)
  rw [abs_le] at e4'
  obtain ⟨e4a, e4b⟩ := e4'
  norm_num at e4a e4b
  rw [abs_le] at b4
  have e5 := rnd_err (s + z)
  have b5 : |s + z| ≤ 2000000 := by rw [abs_le]; constructor <;> linarith
  generalize rnd (s + z) = t at *
  have e5' : |t - (s + z)| ≤ 2000000 / 2 ^ 53 := e5.trans (by gcongr)
  rw [abs_le] at e5' b5
  obtain ⟨e5a, e5b⟩ := e5'
  norm_num at e5a e5b
  have e6 := rnd_err (t - 10000)
  have b6 : |t - 10000| ≤ 2000000 := by rw [abs_le]; constructor <;> linarith
  generalize rnd (t - 10000) = w at *
  have e6' : |w - (t - 10000)| ≤ 2000000 / 2 ^ 53 := e6.trans (by gcongr)
  rw [abs_le] at e6'
  obtain ⟨e6a, e6b⟩ := e6'
  norm_num at e6a e6b
  rw [abs_le]
  constructor <;> norm_num <;> linarith

theorem packMapbox_float_code (h : ℚ) (h0 : -10000 ≤ h) (h1 : h ≤ 16677215 / 10) :
    (code (packMapbox rnd h) : ℤ) = ⌊mapboxVal rnd h⌋ := by
  obtain ⟨_, p, q⟩ := mapboxVal_float h h0 h1
  rw [packMapbox, packVal_float (mapboxVal rnd h) (isF_rnd _) p q, packVal_code _ p q]

/-- **C21 with float64 arithmetic.** For every height from -10000 to 1667721.5 (the highest that can be encoded), packing
and decoding in float64 gives a height at most 10^-7 m above `h` and less than 0.1 m + 10^-7 m below it. -/
theorem C21_float_precision (h : ℚ) (h0 : -10000 ≤ h) (h1 : h ≤ 16677215 / 10) :
    h - 1 / 10 - 1 / 10 ^ 7 < decode rnd (unpackMapbox rnd) (packMapbox rnd h) ∧
      decode rnd (unpackMapbox rnd) (packMapbox rnd h) ≤ h + 1 / 10 ^ 7 := by
  obtain ⟨e, p, q⟩ := mapboxVal_float h h0 h1
  have hd := decode_float (packMapbox rnd h)
  have hc : ((code (packMapbox rnd h) : ℕ) : ℚ) = ((⌊mapboxVal rnd h⌋ : ℤ) : ℚ) := by
    exact_mod_cast packMapbox_float_code h h0 h1
  rw [mapboxHeight, hc] at hd
  have a := Int.floor_le (mapboxVal rnd h)
  have b := Int.lt_floor_add_one (mapboxVal rnd h)
  rw [abs_le] at hd e
  obtain ⟨d1, d2⟩ := hd
  obtain ⟨e1, e2⟩ := e
  norm_num at d1 d2 e1 e2 ⊢
  constructor <;> linarith

/-- **C21 with float64 arithmetic.** Packing the decoded height of an opaque pixel gives that pixel or the one 0.1 m
below it - never anything else. -/
theorem C21_float_pixel_within_one (p : Px) (ha : p.a = 255) :
    packMapbox rnd (decode rnd (unpackMapbox rnd) p) = p ∨
      (code (packMapbox rnd (decode rnd (unpackMapbox rnd) p)) + 1 = code p) := by
  have hlt : code p < 16777216 := by
    have h1 := p.r.isLt; have h2 := p.g.isLt; have h3 := p.b.isLt
    unfold code; omega
  have hd := decode_float p
  have h0 : -10000 ≤ decode rnd (unpackMapbox rnd) p := by
    have c3 : rnd 10000 = 10000 := by decide +kernel
    simp only [decode, unpackMapbox, c3]
    have z : ∀ x : ℚ, 0 ≤ x → 0 ≤ rnd x := fun x hx => by
      have := rnd_mono hx; rwa [rnd_zero] at this
    have n : rnd (-10000) = -10000 := by decide +kernel
    rw [← n]
    apply rnd_mono
    have : 0 ≤ rnd (rnd (rnd (p.r.val * rnd (65536 / 10)) + rnd (p.g.val * rnd (256 / 10))) + rnd (p.b.val * rnd (1 / 10))) := by
      have k : ∀ q : ℚ, 0 ≤ q → ∀ n : ℕ, 0 ≤ rnd ((n : ℚ) * rnd q) := fun q hq n => z _ (mul_nonneg (by positivity) (z _ hq))
      exact z _ (add_nonneg (z _ (add_nonneg (k _ (by norm_num) _) (k _ (by norm_num) _))) (k _ (by norm_num) _))
    linarith
  set h := decode rnd (unpackMapbox rnd) p with hh
  have hq : ((code p : ℕ) : ℚ) ≤ 16777215 := by exact_mod_cast Nat.le_of_lt_succ hlt
  rw [abs_le, mapboxHeight] at hd
  obtain ⟨d1, d2⟩ := hd
  norm_num at d1 d2
  have hx : packMapbox rnd h = packMapboxVal rnd (mapboxVal rnd h) := rfl
  -- the bound of `mapboxVal_float` a little beyond its range
  have key : |mapboxVal rnd h - (h + 10000) * 10| ≤ 1 / 10 ^ 8 ∧ 0 ≤ mapboxVal rnd h ∧ mapboxVal rnd h < 16777216 := by
    have c3 : rnd 10000 = 10000 := by decide +kernel
    have c2 : rnd (1 / 10) = 3602879701896397 / 36028797018963968 := by decide +kernel
    simp only [mapboxVal, unpackMapbox, c3, c2]
    have e1 := rnd_err (h + 10000)
    have p1 : 0 ≤ rnd (h + 10000) := by
      have := rnd_mono (show (0 : ℚ) ≤ h + 10000 by linarith); rwa [rnd_zero] at this
    rw [abs_of_nonneg (show (0:ℚ) ≤ h + 10000 by linarith)] at e1
    generalize rnd (h + 10000) = x at *
    have e2 := rnd_err (x / (3602879701896397 / 36028797018963968))
    have p2 : 0 ≤ rnd (x / (3602879701896397 / 36028797018963968)) := by
      have := rnd_mono (show (0 : ℚ) ≤ x / (3602879701896397 / 36028797018963968) by positivity); rwa [rnd_zero] at this
    rw [abs_of_nonneg (show (0:ℚ) ≤ x / (3602879701896397 / 36028797018963968) by positivity)] at e2
    have : x / (3602879701896397 / 36028797018963968) = x * (36028797018963968 / 3602879701896397) := by
      rw [div_div_eq_mul_div, mul_div_assoc]
    rw [this] at e2 p2 ⊢
    generalize rnd (x * (36028797018963968 / 3602879701896397)) = y at *
    rw [abs_le] at e1 e2
    obtain ⟨e1a, e1b⟩ := e1
    obtain ⟨e2a, e2b⟩ := e2
    norm_num at e1a e1b e2a e2b
    refine ⟨?_, p2, by linarith⟩
    rw [abs_le]
    constructor <;> norm_num <;> linarith
  obtain ⟨e, q0, q1⟩ := key
  have hc : (code (packMapbox rnd h) : ℤ) = ⌊mapboxVal rnd h⌋ := by
    rw [hx, packVal_float (mapboxVal rnd h) (isF_rnd _) q0 q1, packVal_code _ q0 q1]
  rw [abs_le] at e
  obtain ⟨e1, e2⟩ := e
  norm_num at e1 e2
  have lo : (code p : ℤ) - 1 ≤ ⌊mapboxVal rnd h⌋ := by
    rw [Int.le_floor]; push_cast; linarith
  have hi : ⌊mapboxVal rnd h⌋ < (code p : ℤ) + 1 := by
    rw [Int.floor_lt]; push_cast; linarith
  rw [← hc] at lo hi
  rcases (by omega : code (packMapbox rnd h) = code p ∨ code (packMapbox rnd h) + 1 = code p) with h' | h'
  · left
    refine px_ext_code h' ?_
    rw [ha]; rfl
  · exact Or.inr h'

/-- Both happen. -/
example : packMapbox rnd (decode rnd (unpackMapbox rnd) ⟨1, 134, 160, 255⟩) = ⟨1, 134, 160, 255⟩ ∧
    packMapbox rnd (decode rnd (unpackMapbox rnd) ⟨0, 0, 3, 255⟩) = ⟨0, 0, 2, 255⟩ := by decide +kernel

/-! ## Terrarium -/

theorem isF_third (b : Nat) (hb : b < 256) : IsF ((b : ℚ) / 256) := by
  have : IsF ((b : ℤ) : ℚ) := isF_int b (by rw [abs_of_nonneg (by positivity)]; omega)
  simpa using this.div256

/-- With float64 arithmetic `Get` of a terrarium pixel is exact. -/
theorem decode_terrarium_float (p : Px) : decode rnd (unpackTerrarium rnd) p = decode id (unpackTerrarium id) p := by
  have c0 : rnd 256 = 256 := by decide +kernel
  have c1 : rnd 1 = 1 := by decide +kernel
  have c2 : rnd (1 / 256) = 1 / 256 := by decide +kernel
  have c3 : rnd 32768 = 32768 := by decide +kernel
  have hr := p.r.isLt; have hg := p.g.isLt; have hb := p.b.isLt
  simp only [decode, unpackTerrarium, c0, c1, c2, c3, id]
  have i : ∀ n : ℤ, |n| ≤ 2 ^ 30 → rnd ((n : ℚ) / 256) = (n : ℚ) / 256 := fun n hn =>
    ((isF_int n (by omega)).div256).rnd_eq
  have e1 : rnd ((p.r.val : ℚ) * 256) = (p.r.val : ℚ) * 256 := by
    have := i (p.r.val * 65536) (by rw [abs_of_nonneg (by positivity)]; omega)
    push_cast at this; convert this using 1 <;> ring_nf
  have e2 : rnd ((p.g.val : ℚ) * 1) = (p.g.val : ℚ) * 1 := by
    have := i (p.g.val * 256) (by rw [abs_of_nonneg (by positivity)]; omega)
    push_cast at this; convert this using 1 <;> ring_nf
  have e3 : rnd ((p.b.val : ℚ) * (1 / 256)) = (p.b.val : ℚ) * (1 / 256) := by
    have := i p.b.val (by rw [abs_of_nonneg (by positivity)]; omega)
    push_cast at this; convert this using 1 <;> ring_nf
  have e4 : rnd ((p.r.val : ℚ) * 256 + (p.g.val : ℚ) * 1) = (p.r.val : ℚ) * 256 + (p.g.val : ℚ) * 1 := by
    have := i (p.r.val * 65536 + p.g.val * 256) (by rw [abs_of_nonneg (by positivity)]; omega)
    push_cast at this; convert this using 1 <;> ring_nf
  have e5 : rnd ((p.r.val : ℚ) * 256 + (p.g.val : ℚ) * 1 + (p.b.val : ℚ) * (1 / 256))
      = (p.r.val : ℚ) * 256 + (p.g.val : ℚ) * 1 + (p.b.val : ℚ) * (1 / 256) := by
    have := i (p.r.val * 65536 + p.g.val * 256 + p.b.val) (by rw [abs_of_nonneg (by positivity)]; omega)
    push_cast at this; convert this using 1 <;> ring_nf
  have e6 : rnd ((p.r.val : ℚ) * 256 + (p.g.val : ℚ) * 1 + (p.b.val : ℚ) * (1 / 256) - 32768)
      = (p.r.val : ℚ) * 256 + (p.g.val : ℚ) * 1 + (p.b.val : ℚ) * (1 / 256) - 32768 := by
    have := i (p.r.val * 65536 + p.g.val * 256 + p.b.val - 8388608) (by rw [abs_le]; omega)
    push_cast at this; convert this using 1 <;> ring_nf
  rw [e1, e2, e3, e4, e5, e6]

/-- Rounding only enters the terrarium packer where the base is added. -/
theorem packTerrarium_float (h : ℚ) : packTerrarium rnd h = packTerrarium id (rnd (h + 32768) - 32768) := by
  have c3 : rnd 32768 = 32768 := by decide +kernel
  have hv := isF_rnd (h + 32768)
  simp only [packTerrarium, unpackTerrarium, c3, id]
  rw [hv.div256.rnd_eq, hv.mul256.rnd_eq, sub_add_cancel]

/-- **C22 with float64 arithmetic.** For every height from -32768 to 32767 the decoded height is above `h - 1 - 10^-10`
and at most `h + 24/256 + 10^-10`. -/
theorem C22_float_within_one_metre (h : ℚ) (h0 : -32768 ≤ h) (h1 : h ≤ 32767) :
    h - 1 - 1 / 10 ^ 10 < decode rnd (unpackTerrarium rnd) (packTerrarium rnd h) ∧
      decode rnd (unpackTerrarium rnd) (packTerrarium rnd h) ≤ h + 24 / 256 + 1 / 10 ^ 10 := by
  rw [decode_terrarium_float, packTerrarium_float]
  have e := rnd_err (h + 32768)
  have p : 0 ≤ rnd (h + 32768) := by
    have := rnd_mono (show (0 : ℚ) ≤ h + 32768 by linarith); rwa [rnd_zero] at this
  rw [abs_of_nonneg (show (0:ℚ) ≤ h + 32768 by linarith)] at e
  generalize rnd (h + 32768) = v at *
  rw [abs_le] at e
  obtain ⟨e1, e2⟩ := e
  norm_num at e1 e2
  obtain ⟨a, b⟩ := C22_within_one_metre (v - 32768) (by linarith) (by linarith)
  norm_num at a b ⊢
  constructor <;> linarith

/-- **C22 with float64 arithmetic.** The top of the range is worse: just below 32768 m the sum rounds up to 65536, all
bytes wrap and the height comes back as -32768 m plus a fraction. -/
theorem C22_float_wraps_at_top :
    ∃ h : ℚ, rnd h = h ∧ h < 32768 ∧ decode rnd (unpackTerrarium rnd) (packTerrarium rnd h) < -32767 :=
  ⟨32768 - 1 / 2 ^ 38, by decide +kernel, by decide +kernel, by decide +kernel⟩

end Verif.Raster
