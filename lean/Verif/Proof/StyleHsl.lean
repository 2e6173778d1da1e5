import Verif.Model.StyleHsl
import Verif.Proof.F64
import Mathlib.Analysis.SpecialFunctions.Trigonometric.Inverse
import Mathlib.Analysis.Real.Pi.Bounds
import Mathlib.Tactic.Linarith
import Mathlib.Tactic.Positivity
import Mathlib.Tactic.FieldSimp
import Mathlib.Tactic.Ring
import Mathlib.Tactic.NormNum
import Mathlib.Tactic.IntervalCases

/-! # Helper lemmas for the HSL/HSV conversions -/
namespace Verif.Style

variable {K : Type} [Field K] [LinearOrder K] [IsStrictOrderedRing K] [FloorRing K]

/-- What the range theorems need of the floating point arithmetic. -/
structure Trig.Ok (T : Trig K) : Prop where
  rnd_mono : ∀ {x y : K}, x ≤ y → T.rnd x ≤ T.rnd y
  rnd_half : ∀ n : ℤ, |n| ≤ 2 ^ 20 → T.rnd ((n : K) / 2) = n / 2
  rnd_pos : ∀ {x : K}, 0 < x → 0 < T.rnd x
  rnd_near : ∀ {x : K}, |x| ≤ 1024 → |T.rnd x - x| ≤ 1 / 2 ^ 30
  sqrt_ge : ∀ (n : ℕ) (x : K), n ≤ 2 ^ 20 → (n : K) / 2 * ((n : K) / 2) ≤ x → (n : K) / 2 ≤ T.sqrt x
  acos_range : ∀ {x : K}, -1 ≤ x → x ≤ 1 → 0 ≤ T.acos x ∧ T.acos x ≤ T.pi
  pi_pos : 0 < T.pi
  pi_deg : T.rnd (T.rnd (T.pi * 180) / T.pi) = 180

/-- Exact real arithmetic. -/
noncomputable def exactTrig : Trig ℝ := ⟨id, Real.sqrt, Real.arccos, Real.pi⟩

theorem exactTrig_ok : exactTrig.Ok where
  rnd_mono h := h
  rnd_half _ _ := rfl
  rnd_pos h := h
  rnd_near _ := by simp [exactTrig]
  sqrt_ge n x _ h := by
    show (n : ℝ) / 2 ≤ Real.sqrt x
    exact Real.le_sqrt_of_sq_le (by rw [sq]; exact h)
  acos_range _ _ := ⟨Real.arccos_nonneg _, Real.arccos_le_pi _⟩
  pi_pos := Real.pi_pos
  pi_deg := by
    show Real.pi * 180 / Real.pi = 180
    field_simp

/-- float64 `math.Pi`. -/
def pi64 : ℚ := 884279719003555 / 281474976710656

theorem f64_half (n : ℤ) (h : |n| ≤ 2 ^ 20) : F64.rnd ((n : ℚ) / 2) = n / 2 := by
  have := F64.rnd_exact n (-1) (h.trans (by norm_num))
  rw [F64.pow2_eq] at this
  have e : (n : ℚ) * 2 ^ (-1 : ℤ) = n / 2 := by norm_num [div_eq_mul_inv]
  rw [e] at this
  exact this

/-- float64 arithmetic, for any square root that is at least every half-integer below it and any arc cosine
with values between 0 and `math.Pi`. -/
theorem float_trig_ok (sqrt acos : ℚ → ℚ)
    (hs : ∀ (n : ℕ) (x : ℚ), n ≤ 2 ^ 20 → (n : ℚ) / 2 * ((n : ℚ) / 2) ≤ x → (n : ℚ) / 2 ≤ sqrt x)
    (ha : ∀ {x : ℚ}, -1 ≤ x → x ≤ 1 → 0 ≤ acos x ∧ acos x ≤ pi64) :
    (⟨F64.rnd, sqrt, acos, pi64⟩ : Trig ℚ).Ok where
  rnd_mono h := F64.rnd_mono h
  rnd_half n h := f64_half n h
  rnd_pos h := F64.rnd_pos h
  rnd_near := by
    intro x h
    refine (F64.rnd_err x).trans ?_
    have : |x| / 2 ^ 53 ≤ 1024 / 2 ^ 53 := by
      apply div_le_div_of_nonneg_right h (by norm_num)
    exact this.trans (by norm_num)
  sqrt_ge := hs
  acos_range := ha
  pi_pos := by unfold pi64; norm_num
  pi_deg := by
    show F64.rnd (F64.rnd (pi64 * 180) / pi64) = 180
    unfold pi64
    decide +kernel

section
variable {T : Trig K} (hT : T.Ok)
include hT

theorem Trig.Ok.int (n : ℤ) (h : |n| ≤ 2 ^ 19) : T.rnd (n : K) = n := by
  have := hT.rnd_half (2 * n) (by rw [abs_mul]; norm_num; omega)
  have e : ((2 * n : ℤ) : K) / 2 = n := by push_cast; ring
  rwa [e] at this

theorem Trig.Ok.nat (n : ℕ) (h : n ≤ 2 ^ 19) : T.rnd (n : K) = n := by
  have := hT.int (n : ℤ) (by rw [abs_of_nonneg (by omega)]; exact_mod_cast h)
  simpa using this

theorem Trig.Ok.zero : T.rnd 0 = 0 := by simpa using hT.nat 0 (by norm_num)
theorem Trig.Ok.one : T.rnd 1 = 1 := by simpa using hT.nat 1 (by norm_num)
theorem Trig.Ok.nonneg {x : K} (h : 0 ≤ x) : 0 ≤ T.rnd x := by
  have := hT.rnd_mono h; rwa [hT.zero] at this
theorem Trig.Ok.le_nat {x : K} (n : ℕ) (hn : n ≤ 2 ^ 19) (h : x ≤ n) : T.rnd x ≤ n := by
  have := hT.rnd_mono h; rwa [hT.nat n hn] at this
theorem Trig.Ok.nat_le {x : K} (n : ℕ) (hn : n ≤ 2 ^ 19) (h : (n : K) ≤ x) : (n : K) ≤ T.rnd x := by
  have := hT.rnd_mono h; rwa [hT.nat n hn] at this

/-! ## Hue -/

theorem hueUnder_eq {r g b : ℕ} (hr : r ≤ 255) (hg : g ≤ 255) (hb : b ≤ 255) :
    hueUnder T (r : K) g b = ((r * r + g * g + b * b - (r * g + r * b + g * b) : ℤ) : K) := by
  have h1 : ∀ x y : ℕ, x ≤ 255 → y ≤ 255 → x * y ≤ 65025 := fun x y hx hy => Nat.mul_le_mul hx hy
  have e : ∀ x y : ℕ, x ≤ 255 → y ≤ 255 → T.rnd ((x : K) * y) = ((x * y : ℕ) : K) := by
    intro x y hx hy
    rw [← Nat.cast_mul]
    exact hT.nat _ ((h1 x y hx hy).trans (by norm_num))
  have a1 := h1 r r hr hr
  have a2 := h1 g g hg hg
  have a3 := h1 b b hb hb
  have a4 := h1 r g hr hg
  have a5 := h1 r b hr hb
  have a6 := h1 g b hg hb
  unfold hueUnder
  rw [e r r hr hr, e g g hg hg, e b b hb hb, e r g hr hg, e r b hr hb, e g b hg hb,
    ← Nat.cast_add, hT.nat (r * r + g * g) (by omega), ← Nat.cast_add, hT.nat (r * r + g * g + b * b) (by omega),
    ← Nat.cast_add, hT.nat (r * g + r * b) (by omega), ← Nat.cast_add, hT.nat (r * g + r * b + g * b) (by omega)]
  have := hT.int ((r * r + g * g + b * b : ℕ) - (r * g + r * b + g * b : ℕ) : ℤ) (by rw [abs_le]; omega)
  push_cast at this ⊢
  exact this

theorem hueBefore_eq {r g b : ℕ} (hr : r ≤ 255) (hg : g ≤ 255) (hb : b ≤ 255) :
    hueBefore T (r : K) g b = ((2 * r - (g + b) : ℤ) : K) / 2 := by
  have e : ∀ x : ℕ, x ≤ 255 → T.rnd ((x : K) / 2) = (x : K) / 2 := by
    intro x hx
    simpa using hT.rnd_half (x : ℤ) (by rw [abs_of_nonneg (by omega)]; omega)
  unfold hueBefore
  rw [e g hg, e b hb]
  have e2 := hT.rnd_half (g + b : ℤ) (by rw [abs_le]; omega)
  have e3 := hT.rnd_half (2 * r - (g + b) : ℤ) (by rw [abs_le]; omega)
  have f2 : (g : K) / 2 + (b : K) / 2 = ((g + b : ℤ) : K) / 2 := by push_cast; ring
  rw [f2, e2]
  have f3 : (r : K) - ((g + b : ℤ) : K) / 2 = ((2 * r - (g + b) : ℤ) : K) / 2 := by push_cast; ring
  rw [f3, e3]

theorem hueArg_range {r g b : ℕ} (hr : r ≤ 255) (hg : g ≤ 255) (hb : b ≤ 255) :
    -1 ≤ hueArg T (r : K) g b ∧ hueArg T (r : K) g b ≤ 1 := by
  unfold hueArg
  split
  · rename_i hpos
    set n : ℤ := 2 * r - (g + b) with hn
    have hb' : hueBefore T (r : K) g b = (n : K) / 2 := hueBefore_eq hT hr hg hb
    have hsq : (n.natAbs : K) / 2 * ((n.natAbs : K) / 2) ≤ hueUnder T (r : K) g b := by
      rw [hueUnder_eq hT hr hg hb]
      have e1 : (n.natAbs : K) = |(n : K)| := by
        rw [← Int.cast_abs, Int.abs_eq_natAbs]; simp
      rw [e1]
      have e2 : |(n : K)| / 2 * (|(n : K)| / 2) = ((n * n : ℤ) : K) / 4 := by
        push_cast
        rw [← abs_mul_abs_self (n : K)]; ring
      rw [e2]
      rw [div_le_iff₀ (by norm_num)]
      have : n * n ≤ (r * r + g * g + b * b - (r * g + r * b + g * b) : ℤ) * 4 := by
        rw [hn]; nlinarith [sq_nonneg ((g : ℤ) - b)]
      exact_mod_cast this
    have hs := hT.sqrt_ge n.natAbs _ (by omega) hsq
    have h1 : (1 : K) ≤ T.sqrt (hueUnder T (r : K) g b) := by
      have h2 : (1 : K) ≤ hueUnder T (r : K) g b := by
        rw [hueUnder_eq hT hr hg hb] at hpos ⊢
        have : (0 : ℤ) < (r * r + g * g + b * b - (r * g + r * b + g * b) : ℤ) := by exact_mod_cast hpos
        exact_mod_cast this
      have := hT.sqrt_ge 2 _ (by norm_num) (by norm_num; exact h2)
      simpa using this
    have hpos' : 0 < T.sqrt (hueUnder T (r : K) g b) := by linarith
    have habs : |(n : K) / 2| ≤ T.sqrt (hueUnder T (r : K) g b) := by
      rw [abs_div, abs_of_pos (by norm_num : (0:K) < 2), ← Int.cast_abs, Int.abs_eq_natAbs]
      simpa using hs
    rw [abs_le] at habs
    rw [hb']
    constructor
    · have := hT.rnd_mono (x := ((-1 : ℤ) : K)) (y := (n : K) / 2 / T.sqrt (hueUnder T (r : K) g b)) (by
        rw [le_div_iff₀ hpos']; push_cast; linarith [habs.1])
      rw [hT.int (-1) (by norm_num)] at this
      simpa using this
    · have := hT.le_nat (x := (n : K) / 2 / T.sqrt (hueUnder T (r : K) g b)) 1 (by norm_num) (by
        rw [div_le_iff₀ hpos']; push_cast; linarith [habs.2])
      simpa using this
  · constructor <;> norm_num

theorem hueDeg_range {r g b : ℕ} (hr : r ≤ 255) (hg : g ≤ 255) (hb : b ≤ 255) :
    0 ≤ hueDeg T (r : K) g b ∧ hueDeg T (r : K) g b ≤ 180 := by
  obtain ⟨h1, h2⟩ := hueArg_range hT hr hg hb
  obtain ⟨a0, a1⟩ := hT.acos_range h1 h2
  have hp := hT.pi_pos
  unfold hueDeg
  constructor
  · exact hT.nonneg (div_nonneg (hT.nonneg (by linarith)) hp.le)
  · have := hT.rnd_mono (div_le_div_of_nonneg_right (hT.rnd_mono (mul_le_mul_of_nonneg_right a1 (by norm_num : (0:K) ≤ 180))) hp.le)
    rwa [hT.pi_deg] at this

theorem getHue_range {r g b : ℕ} (hr : r ≤ 255) (hg : g ≤ 255) (hb : b ≤ 255) :
    0 ≤ getHue T r g b ∧ getHue T r g b ≤ 360 := by
  obtain ⟨h1, h2⟩ := hueDeg_range hT hr hg hb
  unfold getHue
  split
  · exact ⟨h1, by linarith⟩
  · refine ⟨hT.nonneg (by linarith), ?_⟩
    have := hT.le_nat (x := 360 - hueDeg T (r : K) g b) 360 (by norm_num) (by push_cast; linarith)
    simpa using this

theorem ch_range {c : ℕ} (hc : c ≤ 255) : 0 ≤ T.rnd ((c : K) / 255) ∧ T.rnd ((c : K) / 255) ≤ 1 := by
  refine ⟨hT.nonneg (by positivity), ?_⟩
  have h : (c : K) ≤ 255 := by exact_mod_cast hc
  have := hT.le_nat (x := (c : K) / 255) 1 (by norm_num) (by rw [div_le_iff₀ (by norm_num)]; push_cast; linarith)
  simpa using this

theorem chMax_range {r g b : ℕ} (hr : r ≤ 255) (hg : g ≤ 255) (hb : b ≤ 255) :
    0 ≤ chMax T r g b ∧ chMax T r g b ≤ 1 := by
  have h1 := ch_range hT hr
  have h2 := ch_range hT hg
  have h3 := ch_range hT hb
  unfold chMax
  exact ⟨le_max_of_le_left h1.1, max_le h1.2 (max_le h2.2 h3.2)⟩

theorem chMin_range {r g b : ℕ} (hr : r ≤ 255) (hg : g ≤ 255) (hb : b ≤ 255) :
    0 ≤ chMin T r g b ∧ chMin T r g b ≤ 1 := by
  have h1 := ch_range hT hr
  have h2 := ch_range hT hg
  have h3 := ch_range hT hb
  unfold chMin
  exact ⟨le_min h1.1 (le_min h2.1 h3.1), min_le_of_left_le h1.2⟩

omit hT in
theorem chMin_le_chMax (T : Trig K) (r g b : ℕ) : chMin T r g b ≤ chMax T r g b := by
  unfold chMin chMax
  exact (min_le_left _ _).trans (le_max_left _ _)

theorem lightness_range {mx mn : K} (h0 : 0 ≤ mn) (h : mn ≤ mx) (h1 : mx ≤ 1) :
    0 ≤ lightness T mx mn ∧ lightness T mx mn ≤ 1 := by
  unfold lightness
  have a : 0 ≤ T.rnd (mx + mn) := hT.nonneg (by linarith)
  have b : T.rnd (mx + mn) ≤ 2 := by
    have := hT.le_nat (x := mx + mn) 2 (by norm_num) (by push_cast; linarith)
    simpa using this
  refine ⟨hT.nonneg (by linarith), ?_⟩
  have := hT.le_nat (x := T.rnd (mx + mn) / 2) 1 (by norm_num) (by push_cast; linarith)
  simpa using this

theorem satDen_ge {mx mn : K} (h0 : 0 ≤ mn) (h : mn < mx) (h1 : mx ≤ 1) :
    0 < satDen T mx mn ∧ T.rnd (mx - mn) ≤ satDen T mx mn := by
  unfold satDen
  split
  · have e : (1 : K) ≤ T.rnd (2 - mx) := by
      have := hT.nat_le (x := 2 - mx) 1 (by norm_num) (by push_cast; linarith)
      simpa using this
    exact ⟨hT.rnd_pos (by linarith), hT.rnd_mono (by linarith)⟩
  · exact ⟨hT.rnd_pos (by linarith), hT.rnd_mono (by linarith)⟩

theorem sat_range {mx mn : K} (h0 : 0 ≤ mn) (h : mn < mx) (h1 : mx ≤ 1) :
    0 ≤ T.rnd (T.rnd (mx - mn) / satDen T mx mn) ∧ T.rnd (T.rnd (mx - mn) / satDen T mx mn) ≤ 1 := by
  obtain ⟨hp, hd⟩ := satDen_ge hT h0 h h1
  refine ⟨hT.nonneg (div_nonneg (hT.nonneg (by linarith)) hp.le), ?_⟩
  have := hT.le_nat (x := T.rnd (mx - mn) / satDen T mx mn) 1 (by norm_num) (by
    rw [div_le_iff₀ hp]; push_cast; linarith)
  simpa using this

/-! ## RGBA -/

theorem zeroToOne_byte {x : K} (h0 : -(1 / 1024) ≤ x) (h1 : x ≤ 1 + 1 / 1024) :
    ∃ v : ℕ, v ≤ 255 ∧ zeroToOne T x = some (257 * v) := by
  have hn := hT.rnd_near (x := 255 * x) (by rw [abs_le]; constructor <;> linarith)
  rw [abs_le] at hn
  have hd : (1 : K) / 2 ^ 30 ≤ 1 / 1024 := by norm_num
  set y := T.rnd (255 * x) with hy
  have hlo : -(1 / 2 : K) < y := by linarith [hn.1]
  have hhi : y < 255 + 1 / 2 := by linarith [hn.2]
  have hr : 0 ≤ roundK y ∧ roundK y ≤ 255 := by
    unfold roundK
    split
    · rename_i h
      constructor
      · exact Int.floor_nonneg.2 (by linarith)
      · have : ⌊y + 1 / 2⌋ < 256 := by rw [Int.floor_lt]; push_cast; linarith
        omega
    · rename_i h
      have e : ⌊-y + 1 / 2⌋ = 0 := by
        rw [Int.floor_eq_iff]; push Not at h; constructor <;> push_cast <;> linarith
      rw [e]; constructor <;> norm_num
  refine ⟨(roundK y).toNat, by omega, ?_⟩
  unfold zeroToOne
  simp only [← hy]
  rw [if_pos ⟨hr.1, by omega⟩]
  have hn' : (roundK y).toNat < 256 := by omega
  generalize (roundK y).toNat = n at hn' ⊢
  congr 1
  have := Nat.two_pow_add_eq_or_of_lt (i := 8) (b := n) (by omega) n
  rw [Nat.shiftLeft_eq, Nat.or_comm, Nat.mul_comm n (2 ^ 8), ← this]
  omega

theorem zeroToOne_near {x : K} {v : ℕ} (hv : v ≤ 255) (h : |255 * x - v| ≤ 1 / 4) : zeroToOne T x = some (257 * v) := by
  rw [abs_le] at h
  have hv' : (v : K) ≤ 255 := by exact_mod_cast hv
  have hv0 : (0 : K) ≤ v := by positivity
  have hn := hT.rnd_near (x := 255 * x) (by rw [abs_le]; constructor <;> linarith [h.1, h.2])
  rw [abs_le] at hn
  have hd : (1 : K) / 2 ^ 30 ≤ 1 / 1024 := by norm_num
  set y := T.rnd (255 * x) with hy
  have hlo : (v : K) - 1 / 2 < y := by linarith [hn.1, h.1]
  have hhi : y < v + 1 / 2 := by linarith [hn.2, h.2]
  have hr : roundK y = v := by
    unfold roundK
    split
    · rw [Int.floor_eq_iff]; push_cast; constructor <;> linarith
    · rename_i hneg
      push Not at hneg
      have : v = 0 := by
        by_contra hc
        have : (1 : K) ≤ v := by exact_mod_cast Nat.one_le_iff_ne_zero.2 hc
        linarith
      subst this
      have e : ⌊-y + 1 / 2⌋ = 0 := by
        rw [Int.floor_eq_iff]; push_cast at hlo ⊢; constructor <;> linarith
      rw [e]; rfl
  unfold zeroToOne
  simp only [← hy, hr]
  rw [if_pos ⟨by omega, by omega⟩, Int.toNat_natCast]
  congr 1
  have := Nat.two_pow_add_eq_or_of_lt (i := 8) (b := v) (by omega) v
  rw [Nat.shiftLeft_eq, Nat.or_comm, Nat.mul_comm v (2 ^ 8), ← this]
  omega

theorem hueWrap_range {t : K} (h0 : -120 ≤ t) (h1 : t ≤ 480) : 0 ≤ hueWrap T t ∧ hueWrap T t ≤ 360 := by
  unfold hueWrap
  by_cases h : t < 0
  · simp only [if_pos h]
    have a : T.rnd (t + 360) ≤ 360 := by
      have := hT.le_nat (x := t + 360) 360 (by norm_num) (by push_cast; linarith)
      simpa using this
    rw [if_neg (by linarith)]
    exact ⟨hT.nonneg (by linarith), a⟩
  · simp only [if_neg h]
    push Not at h
    split
    · rename_i h'
      refine ⟨hT.nonneg (by linarith), ?_⟩
      have := hT.le_nat (x := t - 360) 360 (by norm_num) (by push_cast; linarith)
      simpa using this
    · rename_i h'
      exact ⟨h, by linarith⟩

omit hT [FloorRing K] in
/-- a point between two bounds -/
theorem lerp_mem {p q f : K} (hpq : p ≤ q) (h0 : 0 ≤ f) (h1 : f ≤ 1) : p ≤ p + (q - p) * f ∧ p + (q - p) * f ≤ q := by
  have : 0 ≤ q - p := by linarith
  constructor <;> nlinarith

theorem near' {x : K} (h0 : -1024 ≤ x) (h1 : x ≤ 1024) :
    x - 1 / 2 ^ 30 ≤ T.rnd x ∧ T.rnd x ≤ x + 1 / 2 ^ 30 := by
  have := hT.rnd_near (abs_le.2 ⟨h0, h1⟩)
  rw [abs_le] at this
  constructor <;> linarith [this.1, this.2]

/-- `p` and `q` are within a small error of exact values `0 ≤ p₀ ≤ q₀ ≤ 1`. -/
theorem pq_near {s l : K} (hs0 : 0 ≤ s) (hs1 : s ≤ 1) (hl0 : 0 ≤ l) (hl1 : l ≤ 1) :
    ∃ p0 q0 : K, 0 ≤ p0 ∧ p0 ≤ q0 ∧ q0 ≤ 1 ∧ |hslQ T s l - q0| ≤ 3 / 2 ^ 30 ∧ |hslP T s l - p0| ≤ 5 / 2 ^ 30 := by
  have key : ∃ q0 : K, l ≤ q0 ∧ q0 ≤ 1 ∧ q0 ≤ 2 * l ∧ |hslQ T s l - q0| ≤ 3 / 2 ^ 30 := by
    unfold hslQ
    split
    · rename_i h
      refine ⟨l * (1 + s), by nlinarith, by nlinarith, by nlinarith, ?_⟩
      obtain ⟨a1, a2⟩ := near' hT (x := 1 + s) (by linarith) (by linarith)
      have b1 : l * (1 + s) - 1 / 2 ^ 30 ≤ l * T.rnd (1 + s) := by nlinarith
      have b2 : l * T.rnd (1 + s) ≤ l * (1 + s) + 1 / 2 ^ 30 := by nlinarith
      have hls : 0 ≤ l * (1 + s) ∧ l * (1 + s) ≤ 2 := by constructor <;> nlinarith
      have hd : (1 : K) / 2 ^ 30 ≤ 1 / 1024 := by norm_num
      obtain ⟨c1, c2⟩ := near' hT (x := l * T.rnd (1 + s)) (by linarith) (by linarith)
      rw [abs_le]
      constructor <;> linarith
    · rename_i h
      push Not at h
      have hls : 0 ≤ l * s ∧ l * s ≤ 1 := by constructor <;> nlinarith
      refine ⟨l + s - l * s, by nlinarith, by nlinarith, by nlinarith, ?_⟩
      obtain ⟨a1, a2⟩ := near' hT (x := l + s) (by linarith) (by linarith)
      obtain ⟨b1, b2⟩ := near' hT (x := l * s) (by linarith) (by linarith)
      have hd : (1 : K) / 2 ^ 30 ≤ 1 / 1024 := by norm_num
      obtain ⟨c1, c2⟩ := near' hT (x := T.rnd (l + s) - T.rnd (l * s)) (by linarith) (by linarith)
      rw [abs_le]
      constructor <;> linarith
  obtain ⟨q0, h1, h2, h3, h4⟩ := key
  refine ⟨2 * l - q0, q0, by linarith, by linarith, h2, h4, ?_⟩
  rw [abs_le] at h4
  unfold hslP
  obtain ⟨a1, a2⟩ := near' hT (x := 2 * l) (by linarith) (by linarith)
  have hd : (1 : K) / 2 ^ 30 ≤ 1 / 1024 := by norm_num
  have hd3 : (3 : K) / 2 ^ 30 ≤ 1 / 1024 := by norm_num
  obtain ⟨c1, c2⟩ := near' hT (x := T.rnd (2 * l) - hslQ T s l) (by linarith [h4.1, h4.2]) (by linarith [h4.1, h4.2])
  rw [abs_le]
  constructor <;> linarith [h4.1, h4.2]

theorem hueToRGB_range {p q p0 q0 t : K} (h0 : 0 ≤ p0) (hpq : p0 ≤ q0) (h1 : q0 ≤ 1)
    (hq : |q - q0| ≤ 3 / 2 ^ 30) (hp : |p - p0| ≤ 5 / 2 ^ 30) (ht0 : -120 ≤ t) (ht1 : t ≤ 480) :
    -(1 / 1024) ≤ hueToRGB T p q t ∧ hueToRGB T p q t ≤ 1 + 1 / 1024 := by
  obtain ⟨w0, w1⟩ := hueWrap_range hT ht0 ht1
  rw [abs_le] at hq hp
  obtain ⟨hq1, hq2⟩ := hq
  obtain ⟨hp1, hp2⟩ := hp
  have d3 : (3 : K) / 2 ^ 30 = 3 * (1 / 2 ^ 30) := by ring
  have d5 : (5 : K) / 2 ^ 30 = 5 * (1 / 2 ^ 30) := by ring
  have d0 : (0 : K) < 1 / 2 ^ 30 := by positivity
  have d1 : (1 : K) / 2 ^ 30 ≤ 1 / 1000000000 := by norm_num
  rw [d3] at hq1 hq2
  rw [d5] at hp1 hp2
  have hnear : ∀ {x : K}, -1024 ≤ x → x ≤ 1024 → x - 1 / 2 ^ 30 ≤ T.rnd x ∧ T.rnd x ≤ x + 1 / 2 ^ 30 :=
    fun a b => near' hT a b
  unfold hueToRGB
  generalize hueWrap T t = w at *
  generalize (1 : K) / 2 ^ 30 = δ at *
  obtain ⟨D1, D2⟩ := hnear (x := q - p) (by linarith) (by linarith)
  have hDe1 : q0 - p0 - 9 * δ ≤ T.rnd (q - p) := by linarith
  have hDe2 : T.rnd (q - p) ≤ q0 - p0 + 9 * δ := by linarith
  generalize T.rnd (q - p) = D at *
  -- a scaled product
  have prod : ∀ f : K, 0 ≤ f → f ≤ 1 → (q0 - p0) * f - 9 * δ ≤ D * f ∧ D * f ≤ (q0 - p0) * f + 9 * δ := by
    intro f f0 f1
    constructor <;> nlinarith
  simp only
  split
  · rename_i hw
    have f0 : 0 ≤ T.rnd (w / 60) := hT.nonneg (by positivity)
    have f1 : T.rnd (w / 60) ≤ 1 := by
      have := hT.le_nat (x := w / 60) 1 (by norm_num) (by rw [div_le_iff₀ (by norm_num)]; push_cast; linarith)
      simpa using this
    obtain ⟨m1, m2⟩ := prod _ f0 f1
    obtain ⟨l1, l2⟩ := lerp_mem hpq f0 f1
    generalize T.rnd (w / 60) = f at *
    obtain ⟨e1, e2⟩ := hnear (x := D * f) (by linarith) (by linarith)
    obtain ⟨g1, g2⟩ := hnear (x := p + T.rnd (D * f)) (by linarith) (by linarith)
    constructor <;> linarith
  · split
    · constructor <;> linarith
    · split
      · rename_i h60 h180 h240
        push Not at h180
        have f0 : 0 ≤ T.rnd (240 - w) := hT.nonneg (by linarith)
        have f1 : T.rnd (240 - w) ≤ 60 := by
          have := hT.le_nat (x := 240 - w) 60 (by norm_num) (by push_cast; linarith)
          simpa using this
        have f0' : 0 ≤ T.rnd (240 - w) / 60 := by positivity
        have f1' : T.rnd (240 - w) / 60 ≤ 1 := by rw [div_le_iff₀ (by norm_num)]; linarith
        obtain ⟨m1, m2⟩ := prod _ f0' f1'
        obtain ⟨l1, l2⟩ := lerp_mem hpq f0' f1'
        have ef : T.rnd (240 - w) = 60 * (T.rnd (240 - w) / 60) := by ring
        generalize T.rnd (240 - w) / 60 = f at *
        rw [ef]
        have em : D * (60 * f) = 60 * (D * f) := by ring
        rw [em]
        obtain ⟨e1, e2⟩ := hnear (x := 60 * (D * f)) (by linarith) (by linarith)
        obtain ⟨g1, g2⟩ := hnear (x := T.rnd (60 * (D * f)) / 60) (by linarith) (by linarith)
        obtain ⟨k1, k2⟩ := hnear (x := p + T.rnd (T.rnd (60 * (D * f)) / 60)) (by linarith) (by linarith)
        constructor <;> linarith
      · constructor <;> linarith

end
end Verif.Style
