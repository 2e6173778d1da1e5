import Verif.Proof.FontFloat
import Verif.Props.Font

/-!
# C88: the distance field in float64

`C18` describes the transform in exact arithmetic; here every operation of font/sdf_builder.go:143-268 is rounded to
float64, and the result is compared with the exact one.
-/
namespace Verif.Font

open F64 (rnd)

/-- Specification of a seed: finite, between 0 and 1, or the `INF` of sdf_builder.go. -/
def IsSeed (s : ℚ) : Prop := (0 ≤ s ∧ s ≤ 1) ∨ s = 10 ^ 20

/-- Specification: `sq` is a square root with the relative error of float64. -/
def IsRoot (sq : ℚ → ℚ) : Prop :=
  ∀ x : ℚ, 0 ≤ x → |(sq x : ℝ) - Real.sqrt x| ≤ Real.sqrt x / 2 ^ 53

theorem isSeed_ok {s : ℚ} (h : IsSeed s) : SeedOk s := by
  rcases h with h | h
  · exact Or.inl h
  · right; rw [h]; rfl

/-- from a computed pixel to the exact distance for almost the same seeds -/
theorem pixel_close {g : Nat → Nat → ℚ} {s : Nat → Nat → ℝ} {w h x y : Nat} (hw : w ≤ 4096) (hh : h ≤ 4096)
    (hx : x < w) (hy : y < h) {d : ℚ} (H : PixelF g w h x y d) (hg : ∀ i < w, ∀ j < h, SeedOk (g i j)) {η : ℝ}
    (hs : ∀ i < w, ∀ j < h, |(g i j : ℝ) - s i j| ≤ η) (hη1 : η ≤ 1 / 1000000000) {c : ℝ}
    (hc : IsSqDist s w h x y c) :
    ((∃ i < w, ∃ j < h, g i j ≤ 1) → |(d : ℝ) - c| ≤ (w + h) / 16777216 + 5 / 268435456 + η ∧ 0 ≤ d ∧ d ≤ 67108864 ∧
      -1 ≤ c ∧ c ≤ 67108864) ∧
    ((¬ ∃ i < w, ∃ j < h, g i j ≤ 1) → 10 ^ 20 ≤ d ∧ d ≤ 10 ^ 20 + 33554432 ∧ |c - 10 ^ 20| ≤ η) := by
  obtain ⟨⟨i0, hi0, j0, hj0, ec⟩, hcmin⟩ := hc
  have sqb : ∀ a b : Nat, a < 4096 → b < 4096 → ((a : ℝ) - b) ^ 2 ≤ 16777216 ∧ 0 ≤ ((a : ℝ) - b) ^ 2 := by
    intro a b ha hb
    refine ⟨?_, sq_nonneg _⟩
    have := (diff_rnd ha hb).2
    have h2 : (((((a : ℚ) - b) * ((a : ℚ) - b)) : ℚ) : ℝ) ≤ 16777216 := by exact_mod_cast this
    push_cast at h2
    rw [pow_two]; exact h2
  constructor
  · intro hex
    obtain ⟨i, hi, j, hj, hgj, ed, hopt⟩ := H.fin hex
    have hg0 : 0 ≤ g i j := by
      rcases hg i hi j hj with h1 | h1
      · exact h1.1
      · rw [h1, INF_val]; norm_num
    have A0 := mul_self_nonneg ((x : ℚ) - i)
    have B0 := mul_self_nonneg ((y : ℚ) - j)
    have A1 := (diff_rnd (q := x) (v := i) (by omega) (by omega)).2
    have B1 := (diff_rnd (q := y) (v := j) (by omega) (by omega)).2
    -- the exact value at the chosen pixel
    have r1 := rnd_small_err (x := ((y : ℚ) - j) * ((y : ℚ) - j) + g i j) (B := 33554432)
      (by rw [abs_of_nonneg (by linarith)]; linarith)
    have r1b := rnd_between (x := ((y : ℚ) - j) * ((y : ℚ) - j) + g i j) (lo := 0) (hi := 33554432) (by linarith) (by linarith)
      F64.rnd_zero (by have := rnd_nat 33554432 (by omega); exact_mod_cast this)
    generalize rnd (((y : ℚ) - j) * ((y : ℚ) - j) + g i j) = t at ed r1 r1b
    have r2 := rnd_small_err (x := ((x : ℚ) - i) * ((x : ℚ) - i) + t) (B := 67108864)
      (by rw [abs_of_nonneg (by linarith [r1b.1])]; linarith [r1b.2])
    have r2b := rnd_between (x := ((x : ℚ) - i) * ((x : ℚ) - i) + t) (lo := 0) (hi := 67108864) (by linarith [r1b.1])
      (by linarith [r1b.2]) F64.rnd_zero (by have := rnd_nat 67108864 (by omega); exact_mod_cast this)
    rw [← ed] at r2 r2b
    have hV : |d - (((x : ℚ) - i) * ((x : ℚ) - i) + (((y : ℚ) - j) * ((y : ℚ) - j) + g i j))| ≤ 3 / 268435456 := by
      have a := abs_le.1 r1
      have b := abs_le.1 r2
      rw [abs_le]
      constructor <;> linarith [a.1, a.2, b.1, b.2]
    have hVr : |(d : ℝ) - (((x : ℝ) - i) ^ 2 + ((y : ℝ) - j) ^ 2 + (g i j : ℝ))| ≤ 3 / 268435456 := by
      have : ((|d - (((x : ℚ) - i) * ((x : ℚ) - i) + (((y : ℚ) - j) * ((y : ℚ) - j) + g i j))| : ℚ) : ℝ) ≤ ((3 / 268435456 : ℚ) : ℝ) := by
        exact_mod_cast hV
      push_cast at this
      rw [show ((x : ℝ) - i) ^ 2 + ((y : ℝ) - j) ^ 2 + (g i j : ℝ) = ((x : ℝ) - i) * ((x : ℝ) - i) + (((y : ℝ) - j) * ((y : ℝ) - j) + (g i j : ℝ)) by ring]
      exact this
    have hcV := hcmin i hi j hj
    have hsij := abs_le.1 (hs i hi j hj)
    have hgr : (g i j : ℝ) ≤ 1 := by exact_mod_cast hgj
    have hgr0 : (0 : ℝ) ≤ g i j := by exact_mod_cast hg0
    have sx := sqb x i (by omega) (by omega)
    have sy := sqb y j (by omega) (by omega)
    have sx0 := sqb x i0 (by omega) (by omega)
    have sy0 := sqb y j0 (by omega) (by omega)
    have hs0 := abs_le.1 (hs i0 hi0 j0 hj0)
    have hvv := abs_le.1 hVr
    -- the chosen exact pixel is finite
    have hfin0 : g i0 j0 ≤ 1 := by
      rcases hg i0 hi0 j0 hj0 with h1 | h1
      · exact h1.2
      · exfalso
        have e1 : (g i0 j0 : ℝ) = 10 ^ 20 := by rw [h1]; unfold INF; push_cast; rfl
        rw [e1] at hs0
        norm_num at hs0
        linarith [hs0.1, hs0.2, hsij.1, hsij.2, sx.1, sy.1, sx0.2, sy0.2]
    have hgr00 : (0 : ℝ) ≤ g i0 j0 := by
      rcases hg i0 hi0 j0 hj0 with h1 | h1
      · exact_mod_cast h1.1
      · rw [h1, INF_val]; norm_num
    have ho := hopt i0 hi0 j0 hj0 hfin0
    have hor : ((x : ℝ) - i) ^ 2 + ((y : ℝ) - j) ^ 2 + (g i j : ℝ) ≤
        ((x : ℝ) - i0) ^ 2 + ((y : ℝ) - j0) ^ 2 + (g i0 j0 : ℝ) + (w + h) / 16777216 + 1 / 134217728 := by
      have : ((((x : ℚ) - i) * ((x : ℚ) - i) + (((y : ℚ) - j) * ((y : ℚ) - j) + g i j) : ℚ) : ℝ) ≤
        ((((x : ℚ) - i0) * ((x : ℚ) - i0) + (((y : ℚ) - j0) * ((y : ℚ) - j0) + g i0 j0) + (w + h) / 16777216 + 1 / 134217728 : ℚ) : ℝ) := by
        exact_mod_cast ho
      push_cast at this
      nlinarith [this]
    refine ⟨?_, r2b.1, r2b.2, ?_, ?_⟩
    · rw [abs_le]
      constructor
      · have hwh : (0 : ℝ) ≤ ((w : ℝ) + h) / 16777216 := by positivity
        linarith [hvv.1, hsij.1, hsij.2]
      · linarith [hvv.2, hs0.1, hs0.2]
    · rw [ec]; linarith [hs0.1, hs0.2, sx0.2, sy0.2]
    · linarith [hsij.1, hsij.2, sx.1, sy.1]
  · intro hno
    have hI : ∀ i < w, ∀ j < h, (g i j : ℝ) = 10 ^ 20 := by
      intro i hi j hj
      rcases hg i hi j hj with h1 | h1
      · exact absurd ⟨i, hi, j, hj, h1.2⟩ hno
      · rw [h1]; unfold INF; push_cast; rfl
    have hd := H.inf hno
    refine ⟨hd.1, hd.2, ?_⟩
    have a := hcmin x hx y hy
    have b := abs_le.1 (hs x hx y hy)
    have b0 := abs_le.1 (hs i0 hi0 j0 hj0)
    rw [hI x hx y hy] at b
    rw [hI i0 hi0 j0 hj0] at b0
    simp only [sub_self] at a
    have s1 := sq_nonneg ((x : ℝ) - i0)
    have s2 := sq_nonneg ((y : ℝ) - j0)
    rw [abs_le]
    constructor
    · rw [ec]; linarith [b0.2]
    · norm_num at a
      linarith [b.1]

/-- The transform in float64: for every grid with sides between 2 and 4096, seeds in `[0, 1]` or `INF`, and whatever
the work slices held, there is no panic; each pixel gets the root of a value that differs from the least squared
distance plus seed by at most `(w + h)/2^24 + 2^-25` when some seed is finite, and is at least `10^20` otherwise. -/
theorem C88_edt (sq : ℚ → ℚ) (w h : Nat) (seed : Nat → Nat → ℚ) (b : Bufs ℚ) (hw : 2 ≤ w) (hh : 2 ≤ h)
    (hw' : w ≤ 4096) (hh' : h ≤ 4096) (hseed : ∀ i < w, ∀ j < h, IsSeed (seed i j)) :
    ∃ g b', edtF sq (w * h) w h seed b = some (g, b') ∧ ∀ x < w, ∀ y < h, ∃ d : ℚ, g x y = sq d ∧
      ∀ c : ℝ, IsSqDist (fun i j => (seed i j : ℝ)) w h x y c →
      ((∃ i < w, ∃ j < h, seed i j ≤ 1) → |(d : ℝ) - c| ≤ ((w : ℝ) + h) / 2 ^ 24 + 1 / 2 ^ 25) ∧
      ((∀ i < w, ∀ j < h, seed i j = 10 ^ 20) → c = 10 ^ 20 ∧ 10 ^ 20 ≤ d ∧ d ≤ 10 ^ 20 + 2 ^ 25) := by
  have h1 : w < w * h := by nlinarith
  have h2 : h < w * h := by nlinarith
  have hs : ∀ i < w, ∀ j < h, SeedOk (seed i j) := fun i hi j hj => isSeed_ok (hseed i hi j hj)
  obtain ⟨g, b', e, hg⟩ := edtF_spec sq w h (w * h) seed b (by omega) (by omega) h1 h2 hw' hh' hs
  refine ⟨g, b', e, fun x hx y hy => ?_⟩
  obtain ⟨d, hd, ed⟩ := hg x hx y hy
  refine ⟨d, ed, fun c hc => ?_⟩
  have := pixel_close hw' hh' hx hy hd hs (s := fun i j => (seed i j : ℝ)) (η := 0)
    (fun i _ j _ => by simp) (by norm_num) hc
  constructor
  · intro hex
    refine ((this.1 hex).1).trans ?_
    norm_num
  · intro hall
    have hno : ¬ ∃ i < w, ∃ j < h, seed i j ≤ 1 := by
      rintro ⟨i, hi, j, hj, hle⟩
      rw [hall i hi j hj] at hle
      norm_num at hle
    obtain ⟨h3, h4, h5⟩ := this.2 hno
    refine ⟨?_, h3, ?_⟩
    · have := abs_nonpos_iff.1 h5
      linarith
    · norm_num at h4 ⊢; exact h4

/-- For a mask without grey pixels (seeds 0 or `INF`) the squared distances come out exactly. -/
theorem C88_exact (sq : ℚ → ℚ) (w h : Nat) (seed : Nat → Nat → ℚ) (b : Bufs ℚ) (hw : 2 ≤ w) (hh : 2 ≤ h)
    (hw' : w ≤ 4096) (hh' : h ≤ 4096) (hseed : ∀ i < w, ∀ j < h, seed i j = 0 ∨ seed i j = 10 ^ 20)
    (hsome : ∃ i < w, ∃ j < h, seed i j = 0) :
    ∃ g b', edtF sq (w * h) w h seed b = some (g, b') ∧ ∀ x < w, ∀ y < h, ∃ d : ℚ, g x y = sq d ∧
      IsSqDist seed w h x y d := by
  have h1 : w < w * h := by nlinarith
  have h2 : h < w * h := by nlinarith
  have hs : ∀ i < w, ∀ j < h, SeedOk (seed i j) := by
    intro i hi j hj
    rcases hseed i hi j hj with e | e
    · left; rw [e]; norm_num
    · right; rw [e]; rfl
  obtain ⟨g, b', e, hg⟩ := edtF_spec sq w h (w * h) seed b (by omega) (by omega) h1 h2 hw' hh' hs
  refine ⟨g, b', e, fun x hx y hy => ?_⟩
  obtain ⟨d, hd, ed⟩ := hg x hx y hy
  refine ⟨d, ed, ?_⟩
  obtain ⟨i1, hi1, j1, hj1, h01⟩ := hsome
  obtain ⟨i, hi, j, hj, hfin, edd, hopt⟩ := hd.fin ⟨i1, hi1, j1, hj1, by rw [h01]; norm_num⟩
  have zero : ∀ i < w, ∀ j < h, seed i j ≤ 1 → seed i j = 0 := by
    intro i hi j hj hle
    rcases hseed i hi j hj with e | e
    · exact e
    · rw [e] at hle; norm_num at hle
  have e0 := zero i hi j hj hfin
  have A1 := (diff_rnd (q := x) (v := i) (by omega) (by omega)).2
  have B1 := (diff_rnd (q := y) (v := j) (by omega) (by omega)).2
  have A0 := mul_self_nonneg ((x : ℚ) - i)
  have B0 := mul_self_nonneg ((y : ℚ) - j)
  have hdv : d = ((x : ℚ) - i) ^ 2 + ((y : ℚ) - j) ^ 2 := by
    have r1 : rnd (((y : ℚ) - j) * ((y : ℚ) - j)) = ((y : ℚ) - j) * ((y : ℚ) - j) := by
      have hb : (((y : ℤ) - j) * ((y : ℤ) - j)) ≤ 16777216 := by exact_mod_cast B1
      have := F64.rnd_int (((y : ℤ) - j) * ((y : ℤ) - j)) (by
        rw [abs_of_nonneg (mul_self_nonneg _)]; exact hb.trans (by norm_num))
      push_cast at this; exact this
    have r2 : rnd (((x : ℚ) - i) * ((x : ℚ) - i) + ((y : ℚ) - j) * ((y : ℚ) - j)) =
        ((x : ℚ) - i) * ((x : ℚ) - i) + ((y : ℚ) - j) * ((y : ℚ) - j) := by
      have hb : (((x : ℤ) - i) * ((x : ℤ) - i) + ((y : ℤ) - j) * ((y : ℤ) - j)) ≤ 33554432 := by
        have : ((((x : ℤ) - i) * ((x : ℤ) - i) + ((y : ℤ) - j) * ((y : ℤ) - j) : ℤ) : ℚ) ≤ 33554432 := by
          push_cast; linarith
        exact_mod_cast this
      have := F64.rnd_int (((x : ℤ) - i) * ((x : ℤ) - i) + ((y : ℤ) - j) * ((y : ℤ) - j)) (by
        rw [abs_of_nonneg (add_nonneg (mul_self_nonneg _) (mul_self_nonneg _))]
        exact hb.trans (by norm_num))
      push_cast at this; exact this
    rw [edd, e0, add_zero, r1, r2]; ring
  refine ⟨⟨i, hi, j, hj, by rw [hdv, e0, add_zero]⟩, fun i' hi' j' hj' => ?_⟩
  rcases hseed i' hi' j' hj' with e' | e'
  · have := hopt i' hi' j' hj' (by rw [e']; norm_num)
    rw [e0, e'] at this
    rw [e', hdv]
    -- integers that differ by less than one
    have hwh : ((w : ℚ) + h) / 16777216 ≤ 1 / 2 := by
      have a : (w : ℚ) ≤ 4096 := by exact_mod_cast hw'
      have b : (h : ℚ) ≤ 4096 := by exact_mod_cast hh'
      linarith
    have hlt : ((((x : ℤ) - i) ^ 2 + ((y : ℤ) - j) ^ 2 : ℤ) : ℚ) < ((((x : ℤ) - i') ^ 2 + ((y : ℤ) - j') ^ 2 + 1 : ℤ) : ℚ) := by
      push_cast
      nlinarith [this]
    have hle : ((x : ℤ) - i) ^ 2 + ((y : ℤ) - j) ^ 2 ≤ ((x : ℤ) - i') ^ 2 + ((y : ℤ) - j') ^ 2 := by
      have := Int.cast_lt.1 hlt
      omega
    have : ((((x : ℤ) - i) ^ 2 + ((y : ℤ) - j) ^ 2 : ℤ) : ℚ) ≤ ((((x : ℤ) - i') ^ 2 + ((y : ℤ) - j') ^ 2 : ℤ) : ℚ) := by
      exact_mod_cast hle
    push_cast at this
    linarith
  · rw [e', hdv, pow_two, pow_two]
    have := sq_nonneg ((x : ℚ) - i')
    have := sq_nonneg ((y : ℚ) - j')
    norm_num
    linarith

/-! ### Bytes -/

theorem pixel_zero {g : Nat → Nat → ℚ} {w h x y : Nat} (hw : w ≤ 4096) (hh : h ≤ 4096) (hx : x < w) (hy : y < h) {d : ℚ}
    (H : PixelF g w h x y d) (hg : ∀ i < w, ∀ j < h, SeedOk (g i j)) (h0 : g x y = 0) : d = 0 := by
  obtain ⟨i, hi, j, hj, hgj, ed, hopt⟩ := H.fin ⟨x, hx, y, hy, by rw [h0]; norm_num⟩
  have ho := hopt x hx y hy (by rw [h0]; norm_num)
  rw [h0] at ho
  have hg0 : 0 ≤ g i j := by
    rcases hg i hi j hj with h1 | h1
    · exact h1.1
    · rw [h1, INF_val]; norm_num
  have hwh : ((w : ℚ) + h) / 16777216 ≤ 1 / 2 := by
    have a : (w : ℚ) ≤ 4096 := by exact_mod_cast hw
    have b : (h : ℚ) ≤ 4096 := by exact_mod_cast hh
    linarith
  have hlt : ((((x : ℤ) - i) ^ 2 + ((y : ℤ) - j) ^ 2 : ℤ) : ℚ) < ((1 : ℤ) : ℚ) := by
    push_cast
    nlinarith [ho]
  have hlt := Int.cast_lt.1 hlt
  have ex : (x : ℤ) - i = 0 := by
    have := sq_nonneg ((y : ℤ) - j)
    have h2 : ((x : ℤ) - i) ^ 2 < 1 := by omega
    have := sq_nonneg ((x : ℤ) - i)
    exact pow_eq_zero_iff (two_ne_zero) |>.1 (by omega)
  have ey : (y : ℤ) - j = 0 := by
    have := sq_nonneg ((x : ℤ) - i)
    have h2 : ((y : ℤ) - j) ^ 2 < 1 := by omega
    have := sq_nonneg ((y : ℤ) - j)
    exact pow_eq_zero_iff (two_ne_zero) |>.1 (by omega)
  have ex' : i = x := by omega
  have ey' : j = y := by omega
  subst ex'; subst ey'
  rw [ed, h0]
  simp [F64.rnd_zero]

/-- the alpha of a pixel as a float -/
theorem alphaF_facts {a : Nat} (ha : a ≤ 65535) :
    (rnd ((a : ℚ) / 65535) = 1 ↔ a = 65535) ∧ (rnd ((a : ℚ) / 65535) = 0 ↔ a = 0) ∧
    0 ≤ rnd ((a : ℚ) / 65535) ∧ rnd ((a : ℚ) / 65535) ≤ 1 ∧
    |rnd ((a : ℚ) / 65535) - (a : ℚ) / 65535| ≤ 1 / 9007199254740992 := by
  have hr1 : rnd (1 : ℚ) = 1 := by have := rnd_nat 1 (by omega); exact_mod_cast this
  have h0 : (0 : ℚ) ≤ (a : ℚ) / 65535 := by positivity
  have haq : (a : ℚ) ≤ 65535 := by exact_mod_cast ha
  have h1 : (a : ℚ) / 65535 ≤ 1 := by rw [div_le_one (by norm_num)]; exact haq
  have hb := rnd_between h0 h1 F64.rnd_zero hr1
  have he := rnd_small_err (x := (a : ℚ) / 65535) (B := 1) (by rw [abs_of_nonneg h0]; exact h1)
  refine ⟨⟨fun h => ?_, fun h => ?_⟩, ⟨fun h => ?_, fun h => ?_⟩, hb.1, hb.2, he⟩
  · by_contra hne
    have : (a : ℚ) ≤ 65534 := by exact_mod_cast (by omega : a ≤ 65534)
    have h3 : (a : ℚ) / 65535 ≤ 65534 / 65535 := by gcongr
    rw [h] at he
    have := abs_le.1 he
    norm_num at this
    linarith [this.2]
  · rw [h]; norm_num; exact hr1
  · by_contra hne
    have : (0 : ℚ) < (a : ℚ) / 65535 := by
      have : 0 < a := by omega
      positivity
    exact absurd h (F64.rnd_pos this).ne'
  · rw [h]; norm_num; exact F64.rnd_zero

/-- the rounded square of a rounded positive part -/
theorem seedF_mid {t T : ℚ} (h1 : |t - T| ≤ 1 / 9007199254740992) (ht : |t| ≤ 1) (hT : |T| ≤ 1) :
    (0 ≤ rnd (max 0 (rnd t) * max 0 (rnd t)) ∧ rnd (max 0 (rnd t) * max 0 (rnd t)) ≤ 1) ∧
    |rnd (max 0 (rnd t) * max 0 (rnd t)) - max 0 T * max 0 T| ≤ 1 / 1000000000 := by
  have hr1 : rnd (1 : ℚ) = 1 := by have := rnd_nat 1 (by omega); exact_mod_cast this
  have hu := rnd_between (abs_le.1 ht).1 (abs_le.1 ht).2 (by rw [F64.rnd_neg, hr1]) hr1
  have he := rnd_small_err ht
  generalize rnd t = u at hu he
  have hm0 : 0 ≤ max 0 u := le_max_left _ _
  have hm1 : max 0 u ≤ 1 := max_le (by norm_num) hu.2
  have hM0 : 0 ≤ max 0 T := le_max_left _ _
  have hM1 : max 0 T ≤ 1 := max_le (by norm_num) (abs_le.1 hT).2
  have hd : |max 0 u - max 0 T| ≤ |u - T| := by
    have := abs_max_sub_max_le_max (0 : ℚ) u 0 T
    simpa using this
  have hut : |u - T| ≤ 2 / 9007199254740992 := by
    have a := abs_le.1 he
    have b := abs_le.1 h1
    rw [abs_le]
    constructor <;> linarith [a.1, a.2, b.1, b.2]
  have hd2 := abs_le.1 (hd.trans hut)
  generalize max 0 u = m at *
  generalize max 0 T = M at *
  have hmm : 0 ≤ m * m ∧ m * m ≤ 1 := by constructor <;> nlinarith
  have hb := rnd_between hmm.1 hmm.2 F64.rnd_zero hr1
  have he2 := rnd_small_err (x := m * m) (B := 1) (by rw [abs_of_nonneg hmm.1]; exact hmm.2)
  refine ⟨hb, ?_⟩
  have e3 := abs_le.1 he2
  have hmM : |m * m - M * M| ≤ 4 / 9007199254740992 := by
    rw [show m * m - M * M = (m - M) * (m + M) by ring, abs_mul]
    have : |m + M| ≤ 2 := by rw [abs_le]; constructor <;> linarith
    refine (mul_le_mul (abs_le.2 hd2) this (abs_nonneg _) (by norm_num)).trans ?_
    norm_num
  have e4 := abs_le.1 hmM
  rw [abs_le]
  constructor <;> linarith [e3.1, e3.2, e4.1, e4.2]

theorem shapeSeed_mid {a : Nat} (h1 : a ≠ 65535) (h0 : a ≠ 0) :
    shapeSeed a = ((max 0 (1 / 2 - (a : ℚ) / 65535) * max 0 (1 / 2 - (a : ℚ) / 65535) : ℚ) : ℝ) := by
  have e : (a : ℝ) / 65535 = (((a : ℚ) / 65535 : ℚ) : ℝ) := by push_cast; rfl
  unfold shapeSeed
  rw [if_neg h1, if_neg h0, e]
  generalize (a : ℚ) / 65535 = t
  by_cases h : t ≤ 1 / 2
  · rw [if_pos (by have : ((t : ℚ) : ℝ) ≤ ((1 / 2 : ℚ) : ℝ) := by exact_mod_cast h
                   push_cast at this; exact this), max_eq_right (by linarith)]
    push_cast; ring
  · rw [if_neg (by
      intro hc
      apply h
      have : ((t : ℚ) : ℝ) ≤ ((1 / 2 : ℚ) : ℝ) := by push_cast; exact hc
      exact_mod_cast this), max_eq_left (by push Not at h; linarith)]
    push_cast; ring

theorem holeSeed_mid {a : Nat} (h1 : a ≠ 65535) (h0 : a ≠ 0) :
    holeSeed a = ((max 0 ((a : ℚ) / 65535 - 1 / 2) * max 0 ((a : ℚ) / 65535 - 1 / 2) : ℚ) : ℝ) := by
  have e : (a : ℝ) / 65535 = (((a : ℚ) / 65535 : ℚ) : ℝ) := by push_cast; rfl
  unfold holeSeed
  rw [if_neg h1, if_neg h0, e]
  generalize (a : ℚ) / 65535 = t
  by_cases h : 1 / 2 ≤ t
  · rw [if_pos (by have : ((1 / 2 : ℚ) : ℝ) ≤ ((t : ℚ) : ℝ) := by exact_mod_cast h
                   push_cast at this; exact this), max_eq_right (by linarith)]
    push_cast; ring
  · rw [if_neg (by
      intro hc
      apply h
      have : ((1 / 2 : ℚ) : ℝ) ≤ ((t : ℚ) : ℝ) := by push_cast; exact hc
      exact_mod_cast this), max_eq_left (by push Not at h; linarith)]
    push_cast; ring

theorem half_rnd : rnd (1 / 2 : ℚ) = 1 / 2 := by
  have := F64.rnd_exact 1 (-1) (by norm_num)
  rw [show F64.pow2 (-1) = 1 / 2 by rw [F64.pow2_eq]; norm_num] at this
  push_cast at this
  rw [one_mul] at this; exact this

theorem outerSeedF_facts {a : Nat} (ha : a ≤ 65535) :
    SeedOk (outerSeedF a) ∧ |((outerSeedF a : ℚ) : ℝ) - shapeSeed a| ≤ 1 / 1000000000 ∧
    (65535 ≤ 2 * a → outerSeedF a = 0) ∧ (outerSeedF a ≤ 1 ↔ a ≠ 0) := by
  obtain ⟨f1, f0, r0, r1, er⟩ := alphaF_facts ha
  by_cases h1 : a = 65535
  · have e : outerSeedF a = 0 := by unfold outerSeedF; simp only; rw [if_neg (by simpa using f1.2 h1)]
    have e2 : shapeSeed a = 0 := by unfold shapeSeed; rw [if_pos h1]
    rw [e, e2]
    refine ⟨Or.inl ⟨le_refl _, by norm_num⟩, by norm_num, fun _ => rfl, ⟨fun _ => by omega, fun _ => by norm_num⟩⟩
  · have n1 : rnd ((a : ℚ) / 65535) ≠ 1 := fun h => h1 (f1.1 h)
    by_cases h0 : a = 0
    · have e : outerSeedF a = INF := by unfold outerSeedF; simp only; rw [if_pos n1, if_pos (f0.2 h0)]
      have e2 : shapeSeed a = 10 ^ 20 := by unfold shapeSeed; rw [if_neg h1, if_pos h0]
      rw [e, e2]
      refine ⟨Or.inr rfl, by unfold INF; norm_num, fun h => by omega, ⟨fun h => ?_, fun h => absurd h0 h⟩⟩
      rw [INF_val] at h; norm_num at h
    · have n0 : rnd ((a : ℚ) / 65535) ≠ 0 := fun h => h0 (f0.1 h)
      have e : outerSeedF a = rnd (max 0 (rnd (1 / 2 - rnd ((a : ℚ) / 65535))) * max 0 (rnd (1 / 2 - rnd ((a : ℚ) / 65535)))) := by
        unfold outerSeedF; simp only; rw [if_pos n1, if_neg n0]
      have hT0 : (0 : ℚ) ≤ (a : ℚ) / 65535 := by positivity
      have hT1 : (a : ℚ) / 65535 ≤ 1 := by
        rw [div_le_one (by norm_num)]; exact_mod_cast ha
      have hm := seedF_mid (t := 1 / 2 - rnd ((a : ℚ) / 65535)) (T := 1 / 2 - (a : ℚ) / 65535)
        (by rw [show 1 / 2 - rnd ((a : ℚ) / 65535) - (1 / 2 - (a : ℚ) / 65535) = -(rnd ((a : ℚ) / 65535) - (a : ℚ) / 65535) by ring,
              abs_neg]; exact er)
        (by rw [abs_le]; constructor <;> linarith) (by rw [abs_le]; constructor <;> linarith)
      rw [← e] at hm
      refine ⟨Or.inl hm.1, ?_, fun h => ?_, ⟨fun _ => h0, fun _ => hm.1.2⟩⟩
      · rw [shapeSeed_mid h1 h0]
        have := hm.2
        have h2 : ((|outerSeedF a - max 0 (1 / 2 - (a : ℚ) / 65535) * max 0 (1 / 2 - (a : ℚ) / 65535)| : ℚ) : ℝ) ≤ ((1 / 1000000000 : ℚ) : ℝ) := by
          exact_mod_cast this
        rw [Rat.cast_abs, Rat.cast_sub] at h2
        refine h2.trans ?_
        norm_num
      · have hx : (1 / 2 : ℚ) ≤ (a : ℚ) / 65535 := by
          rw [div_le_div_iff₀ (by norm_num) (by norm_num)]
          have : (65535 : ℚ) ≤ 2 * a := by exact_mod_cast h
          linarith
        have hr := F64.rnd_mono hx
        rw [half_rnd] at hr
        have hr2 := F64.rnd_mono (show 1 / 2 - rnd ((a : ℚ) / 65535) ≤ 0 by linarith)
        rw [F64.rnd_zero] at hr2
        rw [e, max_eq_left hr2, mul_zero, F64.rnd_zero]

theorem innerSeedF_facts {a : Nat} (ha : a ≤ 65535) :
    SeedOk (innerSeedF a) ∧ |((innerSeedF a : ℚ) : ℝ) - holeSeed a| ≤ 1 / 1000000000 ∧
    (2 * a ≤ 65535 → innerSeedF a = 0) ∧ (innerSeedF a ≤ 1 ↔ a ≠ 65535) := by
  obtain ⟨f1, f0, r0, r1, er⟩ := alphaF_facts ha
  by_cases h1 : a = 65535
  · have e : innerSeedF a = INF := by unfold innerSeedF; simp only; rw [if_neg (by simpa using f1.2 h1)]
    have e2 : holeSeed a = 10 ^ 20 := by unfold holeSeed; rw [if_pos h1]
    rw [e, e2]
    refine ⟨Or.inr rfl, by unfold INF; norm_num, fun h => by omega, ⟨fun h => ?_, fun h => absurd h1 h⟩⟩
    rw [INF_val] at h; norm_num at h
  · have n1 : rnd ((a : ℚ) / 65535) ≠ 1 := fun h => h1 (f1.1 h)
    by_cases h0 : a = 0
    · have e : innerSeedF a = 0 := by unfold innerSeedF; simp only; rw [if_pos n1, if_pos (f0.2 h0)]
      have e2 : holeSeed a = 0 := by unfold holeSeed; rw [if_neg h1, if_pos h0]
      rw [e, e2]
      refine ⟨Or.inl ⟨le_refl _, by norm_num⟩, by norm_num, fun _ => rfl, ⟨fun _ => by omega, fun _ => by norm_num⟩⟩
    · have n0 : rnd ((a : ℚ) / 65535) ≠ 0 := fun h => h0 (f0.1 h)
      have e : innerSeedF a = rnd (max 0 (rnd (rnd ((a : ℚ) / 65535) - 1 / 2)) * max 0 (rnd (rnd ((a : ℚ) / 65535) - 1 / 2))) := by
        unfold innerSeedF; simp only; rw [if_pos n1, if_neg n0]
      have hT0 : (0 : ℚ) ≤ (a : ℚ) / 65535 := by positivity
      have hT1 : (a : ℚ) / 65535 ≤ 1 := by
        rw [div_le_one (by norm_num)]; exact_mod_cast ha
      have hm := seedF_mid (t := rnd ((a : ℚ) / 65535) - 1 / 2) (T := (a : ℚ) / 65535 - 1 / 2)
        (by rw [show rnd ((a : ℚ) / 65535) - 1 / 2 - ((a : ℚ) / 65535 - 1 / 2) = rnd ((a : ℚ) / 65535) - (a : ℚ) / 65535 by ring]
            exact er)
        (by rw [abs_le]; constructor <;> linarith) (by rw [abs_le]; constructor <;> linarith)
      rw [← e] at hm
      refine ⟨Or.inl hm.1, ?_, fun h => ?_, ⟨fun _ => h1, fun _ => hm.1.2⟩⟩
      · rw [holeSeed_mid h1 h0]
        have := hm.2
        have h2 : ((|innerSeedF a - max 0 ((a : ℚ) / 65535 - 1 / 2) * max 0 ((a : ℚ) / 65535 - 1 / 2)| : ℚ) : ℝ) ≤ ((1 / 1000000000 : ℚ) : ℝ) := by
          exact_mod_cast this
        rw [Rat.cast_abs, Rat.cast_sub] at h2
        refine h2.trans ?_
        norm_num
      · have hx : (a : ℚ) / 65535 ≤ (1 / 2 : ℚ) := by
          rw [div_le_div_iff₀ (by norm_num) (by norm_num)]
          have : 2 * (a : ℚ) ≤ 65535 := by exact_mod_cast h
          linarith
        have hr := F64.rnd_mono hx
        rw [half_rnd] at hr
        have hr2 := F64.rnd_mono (show rnd ((a : ℚ) / 65535) - 1 / 2 ≤ 0 by linarith)
        rw [F64.rnd_zero] at hr2
        rw [e, max_eq_left hr2, mul_zero, F64.rnd_zero]

/-- the value whose rounding is the byte -/
def byteVal (o i : ℚ) : ℚ := rnd (255 - rnd (255 * rnd (rnd (rnd (o - i) / 8) + 1 / 4)))

theorem byteVal_err {o i : ℚ} (ho : |o| ≤ 16384) (hi : |i| ≤ 16384) :
    |byteVal o i - (255 - 255 * ((o - i) / 8 + 1 / 4))| ≤ 1 / 1000000 := by
  have ao := abs_le.1 ho
  have ai := abs_le.1 hi
  unfold byteVal
  have e1 := rnd_small_err (x := o - i) (B := 32768) (by rw [abs_le]; constructor <;> linarith [ao.1, ao.2, ai.1, ai.2])
  generalize rnd (o - i) = t1 at e1
  have a1 := abs_le.1 e1
  have e2 := rnd_small_err (x := t1 / 8) (B := 32768) (by rw [abs_le]; constructor <;> linarith [ao.1, ao.2, ai.1, ai.2, a1.1, a1.2])
  generalize rnd (t1 / 8) = t2 at e2
  have a2 := abs_le.1 e2
  have e3 := rnd_small_err (x := t2 + 1 / 4) (B := 32768) (by rw [abs_le]; constructor <;> linarith [ao.1, ao.2, ai.1, ai.2, a1.1, a1.2, a2.1, a2.2])
  generalize rnd (t2 + 1 / 4) = t3 at e3
  have a3 := abs_le.1 e3
  have e4 := rnd_small_err (x := 255 * t3) (B := 16777216) (by rw [abs_le]; constructor <;> linarith [ao.1, ao.2, ai.1, ai.2, a1.1, a1.2, a2.1, a2.2, a3.1, a3.2])
  generalize rnd (255 * t3) = t4 at e4
  have a4 := abs_le.1 e4
  have e5 := rnd_small_err (x := 255 - t4) (B := 16777216) (by rw [abs_le]; constructor <;> linarith [ao.1, ao.2, ai.1, ai.2, a1.1, a1.2, a2.1, a2.2, a3.1, a3.2, a4.1, a4.2])
  generalize rnd (255 - t4) = t5 at e5
  have a5 := abs_le.1 e5
  rw [abs_le]
  constructor <;> linarith [a1.1, a1.2, a2.1, a2.2, a3.1, a3.2, a4.1, a4.2, a5.1, a5.2]

theorem rnd_ge {x lo : ℚ} (h : lo ≤ x) (e : rnd lo = lo) : lo ≤ rnd x := by rw [← e]; exact F64.rnd_mono h
theorem rnd_le' {x hi : ℚ} (h : x ≤ hi) (e : rnd hi = hi) : rnd x ≤ hi := by rw [← e]; exact F64.rnd_mono h

theorem rnd_neg_nat (m : Nat) (h : m ≤ 9007199254740992) : rnd (-(m : ℚ)) = -m := by rw [F64.rnd_neg, rnd_nat m h]

theorem rnd_quarter (m : Nat) (h : m ≤ 9007199254740992) : rnd ((m : ℚ) / 4) = m / 4 := by
  have := F64.rnd_exact m (-2) (by rw [abs_of_nonneg (by omega)]; norm_num; omega)
  rw [show F64.pow2 (-2) = 1 / 4 by rw [F64.pow2_eq]; norm_num] at this
  push_cast at this
  rw [mul_one_div] at this; exact this

theorem byteVal_far {o i : ℚ} (h : 8000000000 ≤ o - i) : byteVal o i ≤ -1 := by
  unfold byteVal
  have e1 := rnd_ge h (by have := rnd_nat 8000000000 (by omega); exact_mod_cast this)
  generalize rnd (o - i) = t1 at e1
  have e2 := rnd_ge (x := t1 / 8) (lo := 1000) (by linarith) (by have := rnd_nat 1000 (by omega); exact_mod_cast this)
  generalize rnd (t1 / 8) = t2 at e2
  have e3 := rnd_ge (x := t2 + 1 / 4) (lo := 1000) (by linarith) (by have := rnd_nat 1000 (by omega); exact_mod_cast this)
  generalize rnd (t2 + 1 / 4) = t3 at e3
  have e4 := rnd_ge (x := 255 * t3) (lo := 1000) (by linarith) (by have := rnd_nat 1000 (by omega); exact_mod_cast this)
  generalize rnd (255 * t3) = t4 at e4
  exact rnd_le' (by linarith) (by have := rnd_neg_nat 1 (by omega); exact_mod_cast this)

theorem byteVal_near {o i : ℚ} (h : 8000000000 ≤ i - o) : 255 ≤ byteVal o i := by
  unfold byteVal
  have e1 := rnd_le' (x := o - i) (hi := -8000000000) (by linarith) (by have := rnd_neg_nat 8000000000 (by omega); exact_mod_cast this)
  generalize rnd (o - i) = t1 at e1
  have e2 := rnd_le' (x := t1 / 8) (hi := -1000) (by linarith) (by have := rnd_neg_nat 1000 (by omega); exact_mod_cast this)
  generalize rnd (t1 / 8) = t2 at e2
  have e3 := rnd_le' (x := t2 + 1 / 4) (hi := 0) (by linarith) F64.rnd_zero
  generalize rnd (t2 + 1 / 4) = t3 at e3
  have e4 := rnd_le' (x := 255 * t3) (hi := 0) (by linarith) F64.rnd_zero
  generalize rnd (255 * t3) = t4 at e4
  exact rnd_ge (by linarith) (by have := rnd_nat 255 (by omega); exact_mod_cast this)

theorem byteVal_in {i : ℚ} (h : 0 ≤ i) : 765 / 4 ≤ byteVal 0 i := by
  unfold byteVal
  have e1 := rnd_le' (x := 0 - i) (hi := 0) (by linarith) F64.rnd_zero
  generalize rnd (0 - i) = t1 at e1
  have e2 := rnd_le' (x := t1 / 8) (hi := 0) (by linarith) F64.rnd_zero
  generalize rnd (t1 / 8) = t2 at e2
  have e3 := rnd_le' (x := t2 + 1 / 4) (hi := 1 / 4) (by linarith) (by have := rnd_quarter 1 (by omega); exact_mod_cast this)
  generalize rnd (t2 + 1 / 4) = t3 at e3
  have e4 := rnd_le' (x := 255 * t3) (hi := 255 / 4) (by linarith) (by have := rnd_quarter 255 (by omega); exact_mod_cast this)
  generalize rnd (255 * t3) = t4 at e4
  exact rnd_ge (by linarith) (by have := rnd_quarter 765 (by omega); exact_mod_cast this)

theorem byteVal_out {o : ℚ} (h : 0 ≤ o) : byteVal o 0 ≤ 765 / 4 := by
  unfold byteVal
  have e1 := rnd_ge (x := o - 0) (lo := 0) (by linarith) F64.rnd_zero
  generalize rnd (o - 0) = t1 at e1
  have e2 := rnd_ge (x := t1 / 8) (lo := 0) (by linarith) F64.rnd_zero
  generalize rnd (t1 / 8) = t2 at e2
  have e3 := rnd_ge (x := t2 + 1 / 4) (lo := 1 / 4) (by linarith) (by have := rnd_quarter 1 (by omega); exact_mod_cast this)
  generalize rnd (t2 + 1 / 4) = t3 at e3
  have e4 := rnd_ge (x := 255 * t3) (lo := 255 / 4) (by linarith) (by have := rnd_quarter 255 (by omega); exact_mod_cast this)
  generalize rnd (255 * t3) = t4 at e4
  exact rnd_le' (by linarith) (by have := rnd_quarter 765 (by omega); exact_mod_cast this)

theorem roundK_cast (q : ℚ) : Style.roundK (q : ℝ) = Style.roundK q := by
  unfold Style.roundK
  have h0 : (0 : ℝ) ≤ (q : ℝ) ↔ 0 ≤ q := Rat.cast_nonneg
  by_cases h : 0 ≤ q
  · rw [if_pos h, if_pos (h0.2 h)]
    have : (q : ℝ) + 1 / 2 = ((q + 1 / 2 : ℚ) : ℝ) := by push_cast; rfl
    rw [this, Rat.floor_cast]
  · rw [if_neg h, if_neg (fun hh => h (h0.1 hh))]
    have : -(q : ℝ) + 1 / 2 = ((-q + 1 / 2 : ℚ) : ℝ) := by push_cast; rfl
    rw [this, Rat.floor_cast]

theorem roundK_lt_one {a b : ℝ} (h : a < b + 1) : Style.roundK a ≤ Style.roundK b + 1 := by
  unfold Style.roundK
  by_cases ha : 0 ≤ a <;> by_cases hb : 0 ≤ b
  · rw [if_pos ha, if_pos hb]
    have : ⌊a + 1 / 2⌋ ≤ ⌊b + 1 / 2 + 1⌋ := Int.floor_le_floor (by linarith)
    rwa [Int.floor_add_one] at this
  · rw [if_pos ha, if_neg hb]
    push Not at hb
    have h1 : ⌊a + 1 / 2⌋ ≤ 1 - ⌊-b + 1 / 2⌋ := by
      by_cases hb2 : b ≤ -(1 / 2)
      · have : ⌊a + 1 / 2⌋ ≤ 0 := by
          have : ⌊a + 1 / 2⌋ < 1 := Int.floor_lt.2 (by push_cast; linarith)
          omega
        have : ⌊-b + 1 / 2⌋ ≤ 1 := by
          have : ⌊-b + 1 / 2⌋ < 2 := Int.floor_lt.2 (by push_cast; linarith)
          omega
        omega
      · push Not at hb2
        have : ⌊a + 1 / 2⌋ ≤ 1 := by
          have : ⌊a + 1 / 2⌋ < 2 := Int.floor_lt.2 (by push_cast; linarith)
          omega
        have : ⌊-b + 1 / 2⌋ ≤ 0 := by
          have : ⌊-b + 1 / 2⌋ < 1 := Int.floor_lt.2 (by push_cast; linarith)
          omega
        omega
    omega
  · rw [if_neg ha, if_pos hb]
    push Not at ha
    have h1 : (0 : ℤ) ≤ ⌊-a + 1 / 2⌋ := Int.floor_nonneg.2 (by linarith)
    have h2 : (0 : ℤ) ≤ ⌊b + 1 / 2⌋ := Int.floor_nonneg.2 (by linarith)
    omega
  · rw [if_neg ha, if_neg hb]
    have : ⌊-b + 1 / 2⌋ ≤ ⌊-a + 1 / 2 + 1⌋ := Int.floor_le_floor (by linarith)
    rw [Int.floor_add_one] at this
    omega

theorem sqrt_close {a b t : ℝ} (hb : 0 ≤ b) (ht : 0 ≤ t) (h : a ≤ b + t ^ 2) : Real.sqrt a ≤ Real.sqrt b + t := by
  rw [Real.sqrt_le_left (by positivity)]
  have := Real.sq_sqrt hb
  have := Real.sqrt_nonneg b
  nlinarith [mul_nonneg this ht]

theorem root_small {sq : ℚ → ℚ} (hsq : IsRoot sq) {d : ℚ} (h0 : 0 ≤ d) (h1 : d ≤ 67108864) :
    |sq d| ≤ 16384 ∧ |(sq d : ℝ) - Real.sqrt d| ≤ 1 / 1000000000 := by
  have h := hsq d h0
  have hs : Real.sqrt d ≤ 8192 := by
    rw [Real.sqrt_le_left (by norm_num)]
    have : ((d : ℚ) : ℝ) ≤ ((67108864 : ℚ) : ℝ) := by exact_mod_cast h1
    norm_num at this ⊢; exact this
  have hs0 := Real.sqrt_nonneg (d : ℝ)
  have h2 : |(sq d : ℝ) - Real.sqrt d| ≤ 1 / 1000000000 := h.trans (by norm_num; linarith)
  refine ⟨?_, h2⟩
  have a := abs_le.1 h2
  have : |(sq d : ℝ)| ≤ 16384 := by rw [abs_le]; constructor <;> linarith [a.1, a.2]
  exact_mod_cast this

theorem root_nonneg {sq : ℚ → ℚ} (hsq : IsRoot sq) {d : ℚ} (h0 : 0 ≤ d) : 0 ≤ sq d := by
  have h := abs_le.1 (hsq d h0)
  have hs0 := Real.sqrt_nonneg (d : ℝ)
  have : Real.sqrt d / 2 ^ 53 ≤ Real.sqrt d := div_le_self hs0 (by norm_num)
  have : (0 : ℝ) ≤ sq d := by linarith [h.1]
  exact_mod_cast this

theorem root_far {sq : ℚ → ℚ} (hsq : IsRoot sq) {d : ℚ} (h0 : 10 ^ 20 ≤ d) : 9000000000 ≤ sq d := by
  have hd : (0 : ℚ) ≤ d := le_trans (by norm_num) h0
  have h := abs_le.1 (hsq d hd)
  have hs : (10000000000 : ℝ) ≤ Real.sqrt d := by
    apply Real.le_sqrt_of_sq_le
    have : (((10 : ℚ) ^ 20 : ℚ) : ℝ) ≤ ((d : ℚ) : ℝ) := by exact_mod_cast h0
    push_cast at this
    norm_num at this ⊢; exact this
  have : Real.sqrt d / 2 ^ 53 ≤ Real.sqrt d / 100 := by gcongr; norm_num
  have : (9000000000 : ℝ) ≤ sq d := by linarith [h.1]
  exact_mod_cast this

theorem root_zero {sq : ℚ → ℚ} (hsq : IsRoot sq) : sq 0 = 0 := by
  have := hsq 0 (le_refl _)
  simpa using this

theorem root_near {sq : ℚ → ℚ} (hsq : IsRoot sq) {d : ℚ} {c : ℝ} (h0 : 0 ≤ d) (h1 : d ≤ 67108864) (hc : 0 ≤ c)
    (h : |(d : ℝ) - c| ≤ 1 / 7225) : |(sq d : ℝ) - Real.sqrt c| ≤ 1 / 84 := by
  have a := abs_le.1 (root_small hsq h0 h1).2
  have b := abs_le.1 h
  have hd : (0 : ℝ) ≤ d := by exact_mod_cast h0
  have s1 := sqrt_close (a := (d : ℝ)) (b := c) (t := 1 / 85) hc (by norm_num) (by norm_num; linarith [b.2])
  have s2 := sqrt_close (a := c) (b := (d : ℝ)) (t := 1 / 85) hd (by norm_num) (by norm_num; linarith [b.1])
  rw [abs_le]
  constructor <;> linarith [a.1, a.2]

/-- `CalcSDF` in float64 on a pixel -/
theorem calcSDFF_spec (sq : ℚ → ℚ) (w h : Nat) (alpha : Nat → Nat → Nat) (hw : 2 ≤ w) (hh : 2 ≤ h) (hw' : w ≤ 4096)
    (hh' : h ≤ 4096) (ha : ∀ i < w, ∀ j < h, alpha i j ≤ 65535) :
    ∃ px, calcSDFF sq w h alpha 8 (1 / 4) = some px ∧ ∀ x < w, ∀ y < h, ∃ do1 di : ℚ,
      PixelF (fun i j => outerSeedF (alpha i j)) w h x y do1 ∧ PixelF (fun i j => innerSeedF (alpha i j)) w h x y di ∧
      (px x y : ℤ) = max 0 (min 255 (Style.roundK (byteVal (sq do1) (sq di)))) := by
  have h1 : w < w * h := by nlinarith
  have h2 : h < w * h := by nlinarith
  obtain ⟨o, b, e1, p1⟩ := edtF_spec sq w h (w * h) (fun i j => outerSeedF (alpha i j))
    ⟨fun _ => 0, fun _ => 0, fun _ => 0, fun _ => 0⟩ (by omega) (by omega) h1 h2 hw' hh'
    (fun i hi j hj => (outerSeedF_facts (ha i hi j hj)).1)
  obtain ⟨o', b', e2, p2⟩ := edtF_spec sq w h (w * h) (fun i j => innerSeedF (alpha i j)) b (by omega) (by omega) h1 h2 hw' hh'
    (fun i hi j hj => (innerSeedF_facts (ha i hi j hj)).1)
  refine ⟨fun x y => sdfByteF 8 (1 / 4) (o x y) (o' x y), by simp only [calcSDFF, e1, e2], fun x hx y hy => ?_⟩
  obtain ⟨d1, hd1, ed1⟩ := p1 x hx y hy
  obtain ⟨d2, hd2, ed2⟩ := p2 x hx y hy
  refine ⟨d1, d2, hd1, hd2, ?_⟩
  simp only [sdfByteF, ed1, ed2, byteVal]
  exact Int.toNat_of_nonneg (le_max_left _ _)

/-- For every image with sides between 2 and 1024 the bytes `CalcSDF` computes in float64, with the radius and cutoff
`Glyph` uses and any correctly rounded square root, differ by at most one from those of exact arithmetic. -/
theorem C88_bytes (sq : ℚ → ℚ) (hsq : IsRoot sq) (w h : Nat) (alpha : Nat → Nat → Nat) (hw : 2 ≤ w) (hh : 2 ≤ h)
    (hw' : w ≤ 1024) (hh' : h ≤ 1024) (ha : ∀ i < w, ∀ j < h, alpha i j ≤ 65535) :
    ∃ pf px, calcSDFF sq w h alpha 8 (1 / 4) = some pf ∧ calcSDF Real.sqrt w h alpha 8 (1 / 4) = some px ∧
      ∀ x < w, ∀ y < h, |(pf x y : ℤ) - px x y| ≤ 1 := by
  obtain ⟨pf, e1, h1⟩ := calcSDFF_spec sq w h alpha hw hh (by omega) (by omega) ha
  obtain ⟨px, e2, h2⟩ := C18_sdf w h alpha 8 (1 / 4) hw hh (by omega) (by omega) ha
  refine ⟨pf, px, e1, e2, fun x hx y hy => ?_⟩
  obtain ⟨d1, d2, p1, p2, ef⟩ := h1 x hx y hy
  obtain ⟨co, ci, hco, hci, ex⟩ := h2 x hx y hy
  rw [ef, ex]
  have co0 := isSqDist_nonneg (fun i _ j _ => shapeSeed_nonneg _) hco
  have ci0 := isSqDist_nonneg (fun i _ j _ => holeSeed_nonneg _) hci
  have q1 := pixel_close (by omega) (by omega) hx hy p1 (fun i hi j hj => (outerSeedF_facts (ha i hi j hj)).1)
    (fun i hi j hj => (outerSeedF_facts (ha i hi j hj)).2.1) (le_refl _) hco
  have q2 := pixel_close (by omega) (by omega) hx hy p2 (fun i hi j hj => (innerSeedF_facts (ha i hi j hj)).1)
    (fun i hi j hj => (innerSeedF_facts (ha i hi j hj)).2.1) (le_refl _) hci
  have hwh : ((w : ℝ) + h) / 16777216 ≤ 2048 / 16777216 := by
    have a : (w : ℝ) ≤ 1024 := by exact_mod_cast hw'
    have b : (h : ℝ) ≤ 1024 := by exact_mod_cast hh'
    gcongr; linarith
  rw [← roundK_cast]
  by_cases f1 : ∃ i < w, ∃ j < h, outerSeedF (alpha i j) ≤ 1
  · obtain ⟨c1, c2, c3, -, c4⟩ := q1.1 f1
    have r1 := root_small hsq c2 c3
    have so := Real.sqrt_nonneg co
    have so2 : Real.sqrt co ≤ 8192 := by rw [Real.sqrt_le_left (by norm_num)]; norm_num; exact c4
    by_cases f2 : ∃ i < w, ∃ j < h, innerSeedF (alpha i j) ≤ 1
    · obtain ⟨g1, g2, g3, -, g4⟩ := q2.1 f2
      have r2 := root_small hsq g2 g3
      have n1 := abs_le.1 (root_near hsq c2 c3 co0 (c1.trans (by norm_num at hwh ⊢; linarith)))
      have n2 := abs_le.1 (root_near hsq g2 g3 ci0 (g1.trans (by norm_num at hwh ⊢; linarith)))
      have hb := byteVal_err r1.1 r2.1
      have hb' : |((byteVal (sq d1) (sq d2) : ℚ) : ℝ) - (255 - 255 * (((sq d1 : ℝ) - (sq d2 : ℝ)) / 8 + 1 / 4))| ≤ 1 / 1000000 := by
        have : ((|byteVal (sq d1) (sq d2) - (255 - 255 * ((sq d1 - sq d2) / 8 + 1 / 4))| : ℚ) : ℝ) ≤ ((1 / 1000000 : ℚ) : ℝ) := by
          exact_mod_cast hb
        push_cast at this
        exact this
      have b3 := abs_le.1 hb'
      have k1 := roundK_lt_one (a := ((byteVal (sq d1) (sq d2) : ℚ) : ℝ))
        (b := 255 - 255 * ((Real.sqrt co - Real.sqrt ci) / 8 + 1 / 4)) (by linarith [b3.1, b3.2, n1.1, n1.2, n2.1, n2.2])
      have k2 := roundK_lt_one (b := ((byteVal (sq d1) (sq d2) : ℚ) : ℝ))
        (a := 255 - 255 * ((Real.sqrt co - Real.sqrt ci) / 8 + 1 / 4)) (by linarith [b3.1, b3.2, n1.1, n1.2, n2.1, n2.2])
      generalize Style.roundK ((byteVal (sq d1) (sq d2) : ℚ) : ℝ) = A at k1 k2
      generalize Style.roundK (255 - 255 * ((Real.sqrt co - Real.sqrt ci) / 8 + 1 / 4)) = B at k1 k2
      rw [abs_le]
      constructor <;> omega
    · obtain ⟨g1, g2, g3⟩ := q2.2 f2
      have r2 := root_far hsq g1
      have a1 := abs_le.1 r1.1
      have hv := byteVal_near (o := sq d1) (i := sq d2) (by linarith [a1.2])
      have hv' : (255 : ℝ) ≤ ((byteVal (sq d1) (sq d2) : ℚ) : ℝ) := by exact_mod_cast hv
      have k1 := roundK_mono_le (n := 255) (by norm_num) (by push_cast; linarith) (by linarith) (x := ((byteVal (sq d1) (sq d2) : ℚ) : ℝ))
      have sc : (9000000000 : ℝ) ≤ Real.sqrt ci := by
        apply Real.le_sqrt_of_sq_le
        have := (abs_le.1 g3).1
        norm_num at this ⊢; linarith
      have k2 := roundK_mono_le (n := 255) (x := 255 - 255 * ((Real.sqrt co - Real.sqrt ci) / 8 + 1 / 4))
        (by norm_num) (by push_cast; linarith) (by linarith)
      generalize Style.roundK ((byteVal (sq d1) (sq d2) : ℚ) : ℝ) = A at k1
      generalize Style.roundK (255 - 255 * ((Real.sqrt co - Real.sqrt ci) / 8 + 1 / 4)) = B at k2
      rw [abs_le]
      constructor <;> omega
  · have f2 : ∃ i < w, ∃ j < h, innerSeedF (alpha i j) ≤ 1 := by
      refine ⟨x, hx, y, hy, (innerSeedF_facts (ha x hx y hy)).2.2.2.2 ?_⟩
      intro hc
      exact f1 ⟨x, hx, y, hy, (outerSeedF_facts (ha x hx y hy)).2.2.2.2 (by omega)⟩
    obtain ⟨c1, c2, c3⟩ := q1.2 f1
    obtain ⟨g1, g2, g3, -, g4⟩ := q2.1 f2
    have r2 := root_small hsq g2 g3
    have r1 := root_far hsq c1
    have a2 := abs_le.1 r2.1
    have hv := byteVal_far (o := sq d1) (i := sq d2) (by linarith [a2.2])
    have hv' : ((byteVal (sq d1) (sq d2) : ℚ) : ℝ) ≤ -1 := by exact_mod_cast hv
    have k1 := roundK_le (n := 0) (x := ((byteVal (sq d1) (sq d2) : ℚ) : ℝ)) (by norm_num) (by push_cast; linarith)
    have sc : (9000000000 : ℝ) ≤ Real.sqrt co := by
      apply Real.le_sqrt_of_sq_le
      have := (abs_le.1 c3).1
      norm_num at this ⊢; linarith
    have sc2 : Real.sqrt ci ≤ 8192 := by rw [Real.sqrt_le_left (by norm_num)]; norm_num; exact g4
    have k2 := roundK_le (n := 0) (x := 255 - 255 * ((Real.sqrt co - Real.sqrt ci) / 8 + 1 / 4))
      (by norm_num) (by push_cast; linarith)
    generalize Style.roundK ((byteVal (sq d1) (sq d2) : ℚ) : ℝ) = A at k1
    generalize Style.roundK (255 - 255 * ((Real.sqrt co - Real.sqrt ci) / 8 + 1 / 4)) = B at k2
    rw [abs_le]
    constructor <;> omega

theorem pixel_nonneg {g : Nat → Nat → ℚ} {w h x y : Nat} {d : ℚ}
    (H : PixelF g w h x y d) (hg : ∀ i < w, ∀ j < h, SeedOk (g i j)) : 0 ≤ d := by
  by_cases hex : ∃ i < w, ∃ j < h, g i j ≤ 1
  · obtain ⟨i, hi, j, hj, -, ed, -⟩ := H.fin hex
    have hg0 : 0 ≤ g i j := by
      rcases hg i hi j hj with h1 | h1
      · exact h1.1
      · rw [h1, INF_val]; norm_num
    rw [ed]
    have B0 := mul_self_nonneg ((y : ℚ) - j)
    have A0 := mul_self_nonneg ((x : ℚ) - i)
    have := rnd_ge (x := ((y : ℚ) - j) * ((y : ℚ) - j) + g i j) (lo := 0) (by linarith) F64.rnd_zero
    exact rnd_ge (by linarith) F64.rnd_zero
  · have := (H.inf hex).1
    rw [INF_val] at this
    linarith

/-- The outline survives float64: for every image with sides between 2 and 4096 a pixel covered at least half gets a
byte of at least 191 and a pixel covered at most half a byte of at most 191. -/
theorem C88_edge (sq : ℚ → ℚ) (hsq : IsRoot sq) (w h : Nat) (alpha : Nat → Nat → Nat) (hw : 2 ≤ w) (hh : 2 ≤ h)
    (hw' : w ≤ 4096) (hh' : h ≤ 4096) (ha : ∀ i < w, ∀ j < h, alpha i j ≤ 65535) :
    ∃ px, calcSDFF sq w h alpha 8 (1 / 4) = some px ∧ ∀ x < w, ∀ y < h, px x y ≤ 255 ∧
      (65535 ≤ 2 * alpha x y → 191 ≤ px x y) ∧ (2 * alpha x y ≤ 65535 → px x y ≤ 191) := by
  obtain ⟨px, e, hp⟩ := calcSDFF_spec sq w h alpha hw hh hw' hh' ha
  refine ⟨px, e, fun x hx y hy => ?_⟩
  obtain ⟨d1, d2, p1, p2, ev⟩ := hp x hx y hy
  have s1 : ∀ i < w, ∀ j < h, SeedOk (outerSeedF (alpha i j)) := fun i hi j hj => (outerSeedF_facts (ha i hi j hj)).1
  have s2 : ∀ i < w, ∀ j < h, SeedOk (innerSeedF (alpha i j)) := fun i hi j hj => (innerSeedF_facts (ha i hi j hj)).1
  rw [← roundK_cast] at ev
  refine ⟨?_, fun hc => ?_, fun hc => ?_⟩
  · have : (px x y : ℤ) ≤ 255 := by
      rw [ev]; exact max_le (by norm_num) (min_le_left _ _)
    omega
  · have h0 := pixel_zero hw' hh' hx hy p1 s1 ((outerSeedF_facts (ha x hx y hy)).2.2.1 hc)
    rw [h0, root_zero hsq] at ev
    have hv := byteVal_in (root_nonneg hsq (pixel_nonneg p2 s2))
    have hv' : ((765 / 4 : ℚ) : ℝ) ≤ ((byteVal 0 (sq d2) : ℚ) : ℝ) := by exact_mod_cast hv
    push_cast at hv'
    have k := roundK_mono_le (n := 191) (x := ((byteVal 0 (sq d2) : ℚ) : ℝ)) (by norm_num) (by push_cast; linarith) (by linarith)
    omega
  · have h0 := pixel_zero hw' hh' hx hy p2 s2 ((innerSeedF_facts (ha x hx y hy)).2.2.1 hc)
    rw [h0, root_zero hsq] at ev
    have hv := byteVal_out (root_nonneg hsq (pixel_nonneg p1 s1))
    have hv' : ((byteVal (sq d1) 0 : ℚ) : ℝ) ≤ ((765 / 4 : ℚ) : ℝ) := by exact_mod_cast hv
    push_cast at hv'
    have k := roundK_le (n := 191) (x := ((byteVal (sq d1) 0 : ℚ) : ℝ)) (by norm_num) (by push_cast; linarith)
    omega

/-- Square roots as the theorems ask for exist. -/
theorem C88_root_exists : ∃ sq, IsRoot sq := by
  have : ∀ x : ℚ, ∃ r : ℚ, 0 ≤ x → |(r : ℝ) - Real.sqrt x| ≤ Real.sqrt x / 2 ^ 53 := by
    intro x
    by_cases hx : 0 < x
    · have hs : 0 < Real.sqrt x := Real.sqrt_pos.2 (by exact_mod_cast hx)
      obtain ⟨r, h1, h2⟩ := exists_rat_btwn (show Real.sqrt x < Real.sqrt x + Real.sqrt x / 2 ^ 53 by
        have : 0 < Real.sqrt (x : ℝ) / 2 ^ 53 := by positivity
        linarith)
      refine ⟨r, fun _ => ?_⟩
      rw [abs_le]
      constructor <;> linarith
    · refine ⟨0, fun h0 => ?_⟩
      have : x = 0 := le_antisymm (not_lt.1 hx) h0
      rw [this]; simp
  choose sq hsq using this
  exact ⟨sq, hsq⟩

/-- a mask with an empty, a full and a grey pixel -/
def greyMask : Nat → Nat → Nat := fun x y => if y = 1 then (if x = 0 then 65535 else if x = 1 then 20000 else 0) else 0

/-- The hypotheses are met by a mask with empty, full and grey pixels; in float64 the full pixel gets at least 191,
the empty one at most 191. -/
example (sq : ℚ → ℚ) (hsq : IsRoot sq) : ∃ px, calcSDFF sq 3 2 greyMask 8 (1 / 4) = some px ∧ 191 ≤ px 0 1 ∧ px 2 0 ≤ 191 := by
  obtain ⟨px, e, h⟩ := C88_edge sq hsq 3 2 greyMask (by omega) (by omega) (by omega) (by omega) (by
    intro i _ j _; unfold greyMask; split_ifs <;> omega)
  exact ⟨px, e, (h 0 (by omega) 1 (by omega)).2.1 (by decide), (h 2 (by omega) 0 (by omega)).2.2 (by decide)⟩

end Verif.Font
