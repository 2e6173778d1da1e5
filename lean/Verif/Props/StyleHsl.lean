import Verif.Proof.StyleHsl

/-!
# C57: HSL and HSV conversions

The range theorems hold for every arithmetic satisfying `Trig.Ok`: exact real arithmetic
(`C57_exact_applies`) and float64 (`C57_float64_applies`), whatever `math.Sqrt` and `math.Acos` do within
the stated bounds.
-/
namespace Verif.Style

variable {K : Type} [Field K] [LinearOrder K] [IsStrictOrderedRing K] [FloorRing K]

theorem C57_exact_applies : exactTrig.Ok := exactTrig_ok

/-- float64 rounding qualifies for any square root that is not below a half-integer whose square is not
above the argument (a correctly rounded square root is not) and any arc cosine with values in
`[0, math.Pi]` on `[-1, 1]`. -/
theorem C57_float64_applies (sqrt acos : ℚ → ℚ)
    (hs : ∀ (n : ℕ) (x : ℚ), n ≤ 2 ^ 20 → (n : ℚ) / 2 * ((n : ℚ) / 2) ≤ x → (n : ℚ) / 2 ≤ sqrt x)
    (ha : ∀ {x : ℚ}, -1 ≤ x → x ≤ 1 → 0 ≤ acos x ∧ acos x ≤ pi64) :
    (⟨F64.rnd, sqrt, acos, pi64⟩ : Trig ℚ).Ok := float_trig_ok sqrt acos hs ha

/-- The argument of the arc cosine is in `[-1, 1]`, so the hue is never NaN. -/
theorem C57_hue_defined {T : Trig K} (hT : T.Ok) {r g b : ℕ} (hr : r ≤ 255) (hg : g ≤ 255) (hb : b ≤ 255) :
    -1 ≤ hueArg T (r : K) g b ∧ hueArg T (r : K) g b ≤ 1 := hueArg_range hT hr hg hb

/-- `NewHSLFromRGB`: hue in `[0,360]`, saturation and lightness in `[0,1]`, alpha kept. -/
theorem C57_hsl_range {T : Trig K} (hT : T.Ok) {r g b : ℕ} (a : ℕ) (hr : r ≤ 255) (hg : g ≤ 255) (hb : b ≤ 255) :
    (0 ≤ (hslFromRGB T r g b a).h ∧ (hslFromRGB T r g b a).h ≤ 360) ∧
    (0 ≤ (hslFromRGB T r g b a).s ∧ (hslFromRGB T r g b a).s ≤ 1) ∧
    (0 ≤ (hslFromRGB T r g b a).l ∧ (hslFromRGB T r g b a).l ≤ 1) ∧ (hslFromRGB T r g b a).a = a := by
  have hM := chMax_range hT hr hg hb
  have hm := chMin_range hT hr hg hb
  have hle := chMin_le_chMax T r g b
  have hl := lightness_range hT hm.1 hle hM.2
  unfold hslFromRGB
  simp only
  split
  · exact ⟨⟨le_refl _, by norm_num⟩, ⟨le_refl _, by norm_num⟩, hl, rfl⟩
  · rename_i hne
    exact ⟨getHue_range hT hr hg hb, sat_range hT hm.1 (lt_of_le_of_ne hle (Ne.symm hne)) hM.2, hl, rfl⟩

/-- `NewHSVFromRGB`: hue in `[0,360]`, saturation and value in `[0,1]`, alpha kept. -/
theorem C57_hsv_range {T : Trig K} (hT : T.Ok) {r g b : ℕ} (a : ℕ) (hr : r ≤ 255) (hg : g ≤ 255) (hb : b ≤ 255) :
    (0 ≤ (hsvFromRGB T r g b a).h ∧ (hsvFromRGB T r g b a).h ≤ 360) ∧
    (0 ≤ (hsvFromRGB T r g b a).s ∧ (hsvFromRGB T r g b a).s ≤ 1) ∧
    (0 ≤ (hsvFromRGB T r g b a).v ∧ (hsvFromRGB T r g b a).v ≤ 1) ∧ (hsvFromRGB T r g b a).a = a := by
  have hM := chMax_range hT hr hg hb
  have hm := chMin_range hT hr hg hb
  have hle := chMin_le_chMax T r g b
  refine ⟨getHue_range hT hr hg hb, ?_, hM, rfl⟩
  show 0 ≤ (if 0 < chMax T r g b then T.rnd (1 - T.rnd (chMin T r g b / chMax T r g b)) else 0) ∧
    (if 0 < chMax T r g b then T.rnd (1 - T.rnd (chMin T r g b / chMax T r g b)) else 0) ≤ 1
  split
  · rename_i hp
    have d0 : 0 ≤ T.rnd (chMin T r g b / chMax T r g b) := hT.nonneg (div_nonneg hm.1 hp.le)
    have d1 : T.rnd (chMin T r g b / chMax T r g b) ≤ 1 := by
      have := hT.le_nat (x := chMin T r g b / chMax T r g b) 1 (by norm_num) (by
        rw [div_le_iff₀ hp]; push_cast; linarith)
      simpa using this
    refine ⟨hT.nonneg (by linarith), ?_⟩
    have := hT.le_nat (x := 1 - T.rnd (chMin T r g b / chMax T r g b)) 1 (by norm_num) (by push_cast; linarith)
    simpa using this
  · exact ⟨le_refl _, by norm_num⟩

/-- `RGBA` of every colour `NewHSLColor` accepts: each channel is a byte written twice (`257·v`, `v ≤ 255`),
so at most 65535, and no float-to-integer conversion is out of range. -/
theorem C57_rgba_range {T : Trig K} (hT : T.Ok) (c : HSL K) (hh0 : 0 ≤ c.h) (hh1 : c.h ≤ 360) (hs0 : 0 ≤ c.s)
    (hs1 : c.s ≤ 1) (hl0 : 0 ≤ c.l) (hl1 : c.l ≤ 1) (ha : c.a ≤ 255) :
    ∃ r g b : ℕ, r ≤ 255 ∧ g ≤ 255 ∧ b ≤ 255 ∧
      c.rgba T = (some (257 * r), some (257 * g), some (257 * b), 257 * c.a) := by
  have ea : u8to32 c.a = 257 * c.a := by unfold u8to32; omega
  unfold HSL.rgba
  simp only [ea]
  by_cases hs : c.s = 0
  · obtain ⟨v, hv, e⟩ := zeroToOne_byte hT (x := c.l) (by linarith [show (0 : K) < 1 / 1024 by norm_num]) (by linarith [show (0 : K) < 1 / 1024 by norm_num])
    exact ⟨v, v, v, hv, hv, hv, by rw [if_pos hs, e]⟩
  · rw [if_neg hs]
    obtain ⟨p0, q0, h0, hpq, h1, hq, hp⟩ := pq_near hT hs0 hs1 hl0 hl1
    have rng : ∀ t : K, -120 ≤ t → t ≤ 480 → ∃ v : ℕ, v ≤ 255 ∧
        zeroToOne T (hueToRGB T (hslP T c.s c.l) (hslQ T c.s c.l) t) = some (257 * v) := by
      intro t t0 t1
      obtain ⟨x0, x1⟩ := hueToRGB_range hT h0 hpq h1 hq hp t0 t1
      exact zeroToOne_byte hT x0 x1
    have t1 : T.rnd (c.h + 120) ≤ 480 := by
      have := hT.le_nat (x := c.h + 120) 480 (by norm_num) (by push_cast; linarith)
      simpa using this
    have t2 : -120 ≤ T.rnd (c.h - 120) := by
      have := hT.rnd_mono (x := ((-120 : ℤ) : K)) (y := c.h - 120) (by push_cast; linarith)
      rw [hT.int (-120) (by norm_num)] at this
      simpa using this
    have t3 : T.rnd (c.h - 120) ≤ 480 := by
      have := hT.le_nat (x := c.h - 120) 480 (by norm_num) (by push_cast; linarith)
      simpa using this
    have t4 := hT.nonneg (x := c.h + 120) (by linarith)
    obtain ⟨r, hr, er⟩ := rng _ (by linarith) t1
    obtain ⟨g, hg, eg⟩ := rng c.h (by linarith) (by linarith)
    obtain ⟨b, hb, eb⟩ := rng _ t2 t3
    exact ⟨r, g, b, hr, hg, hb, by rw [er, eg, eb]⟩

/-- Together: converting any RGB colour to HSL and reading it back gives proper 16-bit channels. -/
theorem C57_back_defined {T : Trig K} (hT : T.Ok) {r g b a : ℕ} (hr : r ≤ 255) (hg : g ≤ 255) (hb : b ≤ 255)
    (ha : a ≤ 255) :
    ∃ r' g' b' : ℕ, r' ≤ 255 ∧ g' ≤ 255 ∧ b' ≤ 255 ∧
      (hslFromRGB T r g b a).rgba T = (some (257 * r'), some (257 * g'), some (257 * b'), 257 * a) := by
  obtain ⟨⟨h0, h1⟩, ⟨s0, s1⟩, ⟨l0, l1⟩, e⟩ := C57_hsl_range hT a hr hg hb
  have := C57_rgba_range hT (hslFromRGB T r g b a) h0 h1 s0 s1 l0 l1 (by rw [e]; exact ha)
  rwa [e] at this

/-- Greys survive the round trip, also with rounding. -/
theorem C57_grey_roundtrip {T : Trig K} (hT : T.Ok) {v a : ℕ} (hv : v ≤ 255) (ha : a ≤ 255) :
    (hslFromRGB T v v v a).rgba T = (some (257 * v), some (257 * v), some (257 * v), 257 * a) := by
  have ea : u8to32 a = 257 * a := by unfold u8to32; omega
  have eM : chMax T v v v = T.rnd ((v : K) / 255) := by unfold chMax; simp
  have em : chMin T v v v = T.rnd ((v : K) / 255) := by unfold chMin; simp
  have e : hslFromRGB T v v v a = ⟨0, 0, lightness T (T.rnd ((v : K) / 255)) (T.rnd ((v : K) / 255)), a⟩ := by
    unfold hslFromRGB; simp [eM, em]
  rw [e]
  unfold HSL.rgba
  simp only [if_true, ea]
  have hv0 : (0 : K) ≤ v := by positivity
  have hv1 : (v : K) ≤ 255 := by exact_mod_cast hv
  have hx0 : (0 : K) ≤ (v : K) / 255 := by positivity
  have hx1 : (v : K) / 255 ≤ 1 := by rw [div_le_iff₀ (by norm_num)]; linarith
  have ev : (v : K) = 255 * ((v : K) / 255) := by field_simp
  have d : (1 : K) / 2 ^ 30 ≤ 1 / 1000000000 := by norm_num
  have key : zeroToOne T (lightness T (T.rnd ((v : K) / 255)) (T.rnd ((v : K) / 255))) = some (257 * v) := by
    apply zeroToOne_near hT hv
    unfold lightness
    obtain ⟨x, hx⟩ : ∃ x : K, x = (v : K) / 255 := ⟨_, rfl⟩
    rw [← hx] at ev hx0 hx1 ⊢
    obtain ⟨a1, a2⟩ := near' hT (x := x) (by linarith) (by linarith)
    obtain ⟨b1, b2⟩ := near' hT (x := T.rnd x + T.rnd x) (by linarith) (by linarith)
    obtain ⟨c1, c2⟩ := near' hT (x := T.rnd (T.rnd x + T.rnd x) / 2) (by linarith) (by linarith)
    rw [abs_le]
    constructor <;> linarith
  rw [key]

/-! ## Exact arithmetic: the six pure hues -/

theorem exact_rnd (x : ℝ) : exactTrig.rnd x = x := rfl
theorem exact_hslQ (x l : ℝ) : hslQ exactTrig x l = if l < 1 / 2 then l * (1 + x) else l + x - l * x := rfl
theorem exact_hslP (x l : ℝ) : hslP exactTrig x l = 2 * l - hslQ exactTrig x l := rfl
theorem exact_lightness (x y : ℝ) : lightness exactTrig x y = (x + y) / 2 := rfl
theorem exact_satDen (x y : ℝ) : satDen exactTrig x y = if 1 / 2 < (x + y) / 2 then 2 - x - y else x + y := rfl
theorem exact_wrap (t : ℝ) : hueWrap exactTrig t =
    if 360 < (if t < 0 then t + 360 else t) then (if t < 0 then t + 360 else t) - 360 else (if t < 0 then t + 360 else t) := rfl
theorem exact_hueToRGB (p q t : ℝ) : hueToRGB exactTrig p q t =
    if hueWrap exactTrig t < 60 then p + (q - p) * (hueWrap exactTrig t / 60)
    else if hueWrap exactTrig t < 180 then q
    else if hueWrap exactTrig t < 240 then p + (q - p) * (240 - hueWrap exactTrig t) / 60
    else p := rfl

/-- over exact arithmetic, `q` is the larger and `p` the smaller channel -/
theorem exact_pq {M m : ℝ} (h0 : 0 ≤ m) (h : m < M) (h1 : M ≤ 1) :
    hslQ exactTrig ((M - m) / satDen exactTrig M m) (lightness exactTrig M m) = M ∧
    hslP exactTrig ((M - m) / satDen exactTrig M m) (lightness exactTrig M m) = m := by
  have key : hslQ exactTrig ((M - m) / satDen exactTrig M m) (lightness exactTrig M m) = M := by
    rw [exact_hslQ, exact_satDen, exact_lightness]
    by_cases hl : (M + m) / 2 < 1 / 2
    · rw [if_pos hl, if_neg (by linarith)]
      have : M + m ≠ 0 := by linarith
      field_simp
      ring
    · rw [if_neg hl]
      push Not at hl
      split
      · rename_i hc
        have : 2 - M - m ≠ 0 := by linarith
        field_simp
        ring
      · have e : M + m = 1 := by linarith
        rw [e]
        linarith
  refine ⟨key, ?_⟩
  rw [exact_hslP, key, exact_lightness]
  ring

/-- `RGBA` of the exact HSL colour of given extreme channels -/
theorem exact_rgba0 {r g b a : ℕ} (ha : a ≤ 255) {M m : ℕ} (hM : M ≤ 255)
    (hlt : m < M) (eM : max r (max g b) = M) (em : min r (min g b) = m) :
    (hslFromRGB exactTrig r g b a).rgba exactTrig =
      (zeroToOne exactTrig (hueToRGB exactTrig ((m : ℝ) / 255) ((M : ℝ) / 255) (getHue exactTrig r g b + 120)),
       zeroToOne exactTrig (hueToRGB exactTrig ((m : ℝ) / 255) ((M : ℝ) / 255) (getHue exactTrig r g b)),
       zeroToOne exactTrig (hueToRGB exactTrig ((m : ℝ) / 255) ((M : ℝ) / 255) (getHue exactTrig r g b - 120)),
       257 * a) := by
  have ea : u8to32 a = 257 * a := by unfold u8to32; omega
  have mono : Monotone (fun n : ℕ => (n : ℝ) / 255) := fun i j h => by
    have : (i : ℝ) ≤ j := by exact_mod_cast h
    show (i : ℝ) / 255 ≤ (j : ℝ) / 255
    linarith
  have cM : chMax exactTrig r g b = (M : ℝ) / 255 := by
    unfold chMax
    simp only [exact_rnd]
    rw [← eM, mono.map_max (a := r) (b := max g b), mono.map_max (a := g) (b := b)]
  have cm : chMin exactTrig r g b = (m : ℝ) / 255 := by
    unfold chMin
    simp only [exact_rnd]
    rw [← em, mono.map_min (a := r) (b := min g b), mono.map_min (a := g) (b := b)]
  have hlt' : (m : ℝ) < M := by exact_mod_cast hlt
  have hM' : (M : ℝ) ≤ 255 := by exact_mod_cast hM
  have k0 : (0 : ℝ) ≤ (m : ℝ) / 255 := by positivity
  have k1 : (m : ℝ) / 255 < (M : ℝ) / 255 := by linarith
  have k2 : (M : ℝ) / 255 ≤ 1 := by linarith
  obtain ⟨eq, ep⟩ := exact_pq k0 k1 k2
  have hden := (satDen_ge exactTrig_ok k0 k1 k2).1
  unfold hslFromRGB
  simp only [cM, cm, if_neg k1.ne', exact_rnd]
  unfold HSL.rgba
  have hs : ((M : ℝ) / 255 - (m : ℝ) / 255) / satDen exactTrig ((M : ℝ) / 255) ((m : ℝ) / 255) ≠ 0 :=
    (div_pos (by linarith) hden).ne'
  simp only [if_neg hs, eq, ep, ea, exact_rnd]

theorem exact_zeroToOne (n : ℕ) (hn : n ≤ 255) : zeroToOne exactTrig ((n : ℝ) / 255) = some (257 * n) := by
  apply zeroToOne_near exactTrig_ok hn
  have : 255 * ((n : ℝ) / 255) - n = 0 := by field_simp; ring
  rw [this]; norm_num

/-- … when the three channels come out as given -/
theorem exact_rgba {r g b a : ℕ} (ha : a ≤ 255) {M m : ℕ} (hM : M ≤ 255)
    (hlt : m < M) (eM : max r (max g b) = M) (em : min r (min g b) = m) (x y z : ℕ) (hx : x ≤ 255) (hy : y ≤ 255)
    (hz : z ≤ 255)
    (h1 : hueToRGB exactTrig ((m : ℝ) / 255) ((M : ℝ) / 255) (getHue exactTrig r g b + 120) = x / 255)
    (h2 : hueToRGB exactTrig ((m : ℝ) / 255) ((M : ℝ) / 255) (getHue exactTrig r g b) = y / 255)
    (h3 : hueToRGB exactTrig ((m : ℝ) / 255) ((M : ℝ) / 255) (getHue exactTrig r g b - 120) = z / 255) :
    (hslFromRGB exactTrig r g b a).rgba exactTrig = (some (257 * x), some (257 * y), some (257 * z), 257 * a) := by
  rw [exact_rgba0 ha hM hlt eM em, h1, h2, h3, exact_zeroToOne x hx, exact_zeroToOne y hy, exact_zeroToOne z hz]

theorem exact_under (r g b : ℕ) : hueUnder exactTrig (r : ℝ) g b = r * r + g * g + b * b - (r * g + r * b + g * b) := rfl
theorem exact_before (r g b : ℕ) : hueBefore exactTrig (r : ℝ) g b = r - (g / 2 + b / 2) := rfl

/-- the hue in degrees, when two of the channels are equal -/
theorem exact_hueDeg {r g b : ℕ} {d k θ : ℝ} (hd : 0 < d)
    (hu : hueUnder exactTrig (r : ℝ) g b = d * d) (hb : hueBefore exactTrig (r : ℝ) g b = k * d)
    (hk : Real.arccos k = θ * (Real.pi / 180)) : hueDeg exactTrig (r : ℝ) g b = θ := by
  unfold hueDeg hueArg
  simp only [exact_rnd]
  rw [hu, hb, if_pos (by positivity)]
  have e : exactTrig.sqrt (d * d) = d := Real.sqrt_mul_self hd.le
  rw [e, mul_div_cancel_right₀ k hd.ne']
  have e2 : exactTrig.acos k = θ * (Real.pi / 180) := hk
  have e3 : exactTrig.pi = Real.pi := rfl
  rw [e2, e3]
  have := Real.pi_pos.ne'
  field_simp

theorem arccos_half : Real.arccos (1 / 2) = 60 * (Real.pi / 180) := by
  rw [← Real.cos_pi_div_three, Real.arccos_cos (by positivity) (by linarith [Real.pi_pos])]; ring
theorem arccos_neg_half : Real.arccos (-(1 / 2)) = 120 * (Real.pi / 180) := by
  rw [Real.arccos_neg, arccos_half]; ring
theorem arccos_one' : Real.arccos 1 = 0 * (Real.pi / 180) := by rw [Real.arccos_one]; ring
theorem arccos_neg_one' : Real.arccos (-1) = 180 * (Real.pi / 180) := by rw [Real.arccos_neg_one]; ring

/-- With exact arithmetic the six families of pure hues (two equal channels) survive the round trip. -/
theorem C57_pure_hue_roundtrip {M m a : ℕ} (hM : M ≤ 255) (h : m < M) (ha : a ≤ 255) (r g b : ℕ)
    (hc : (r, g, b) ∈ [(M, m, m), (M, M, m), (m, M, m), (m, M, M), (m, m, M), (M, m, M)]) :
    (hslFromRGB exactTrig r g b a).rgba exactTrig = (some (257 * r), some (257 * g), some (257 * b), 257 * a) := by
  have hd : (0 : ℝ) < (M : ℝ) - m := by have : (m : ℝ) < M := by exact_mod_cast h
                                        linarith
  have hm : m ≤ 255 := by omega
  simp only [List.mem_cons, Prod.mk.injEq, List.not_mem_nil, or_false] at hc
  rcases hc with ⟨e1, e2, e3⟩ | ⟨e1, e2, e3⟩ | ⟨e1, e2, e3⟩ | ⟨e1, e2, e3⟩ | ⟨e1, e2, e3⟩ | ⟨e1, e2, e3⟩ <;> rw [e1, e2, e3]
  · have eh : getHue exactTrig M m m = 0 := by
      unfold getHue
      rw [if_pos (by omega)]
      exact exact_hueDeg hd (by rw [exact_under]; ring) (by rw [exact_before]; ring) arccos_one'
    refine exact_rgba ha hM h (by omega) (by omega) M m m hM hm hm ?_ ?_ ?_ <;> rw [eh] <;>
      norm_num [exact_hueToRGB, exact_wrap]
  · have eh : getHue exactTrig M M m = 60 := by
      unfold getHue
      rw [if_pos (by omega)]
      exact exact_hueDeg hd (by rw [exact_under]; ring) (by rw [exact_before]; ring) arccos_half
    refine exact_rgba ha hM h (by omega) (by omega) M M m hM hM hm ?_ ?_ ?_ <;> rw [eh] <;>
      norm_num [exact_hueToRGB, exact_wrap]
  · have eh : getHue exactTrig m M m = 120 := by
      unfold getHue
      rw [if_pos (by omega)]
      exact exact_hueDeg hd (by rw [exact_under]; ring) (by rw [exact_before]; ring) arccos_neg_half
    refine exact_rgba ha hM h (by omega) (by omega) m M m hm hM hm ?_ ?_ ?_ <;> rw [eh] <;>
      norm_num [exact_hueToRGB, exact_wrap]
  · have eh : getHue exactTrig m M M = 180 := by
      unfold getHue
      rw [if_pos (by omega)]
      exact exact_hueDeg hd (by rw [exact_under]; ring) (by rw [exact_before]; ring) arccos_neg_one'
    refine exact_rgba ha hM h (by omega) (by omega) m M M hm hM hM ?_ ?_ ?_ <;> rw [eh] <;>
      norm_num [exact_hueToRGB, exact_wrap]
  · have eh : getHue exactTrig m m M = 240 := by
      unfold getHue
      rw [if_neg (by omega), exact_hueDeg hd (θ := 120) (by rw [exact_under]; ring) (by rw [exact_before]; ring) arccos_neg_half, exact_rnd]
      norm_num
    refine exact_rgba ha hM h (by omega) (by omega) m m M hm hm hM ?_ ?_ ?_ <;> rw [eh] <;>
      norm_num [exact_hueToRGB, exact_wrap]
  · have eh : getHue exactTrig M m M = 300 := by
      unfold getHue
      rw [if_neg (by omega), exact_hueDeg hd (θ := 60) (by rw [exact_under]; ring) (by rw [exact_before]; ring) arccos_half, exact_rnd]
      norm_num
    refine exact_rgba ha hM h (by omega) (by omega) M m M hM hm hM ?_ ?_ ?_ <;> rw [eh] <;>
      norm_num [exact_hueToRGB, exact_wrap]

/-! ## The general round trip is false -/

theorem cos_pi_div_twelve_sq : Real.cos (Real.pi / 12) ^ 2 = (2 + Real.sqrt 3) / 4 := by
  have := Real.cos_sq (Real.pi / 12)
  rw [this]
  have e : 2 * (Real.pi / 12) = Real.pi / 6 := by ring
  rw [e, Real.cos_pi_div_six]
  ring

/-- The hue of (255, 65, 0) is below 15°, while `RGBA` would need 65·60/255 ≈ 15.3°. -/
theorem hue_255_65_0 : 0 ≤ getHue exactTrig 255 65 0 ∧ getHue exactTrig 255 65 0 < 15 := by
  refine ⟨(getHue_range exactTrig_ok (by norm_num) (by norm_num) (by norm_num)).1, ?_⟩
  unfold getHue
  rw [if_pos (by norm_num)]
  unfold hueDeg hueArg
  rw [exact_under, exact_before]
  norm_num [exact_rnd]
  have es : exactTrig.sqrt 52675 = Real.sqrt 52675 := rfl
  have ep : exactTrig.pi = Real.pi := rfl
  rw [es, ep, div_lt_iff₀ Real.pi_pos]
  have hpi := Real.pi_pos
  have hcos : Real.cos (Real.pi / 12) < 445 / 2 / Real.sqrt 52675 := by
    have hs : 0 < Real.sqrt 52675 := Real.sqrt_pos.2 (by norm_num)
    have h1 : 0 ≤ Real.cos (Real.pi / 12) := Real.cos_nonneg_of_neg_pi_div_two_le_of_le (by linarith) (by linarith)
    apply lt_of_pow_lt_pow_left₀ 2 (by positivity)
    rw [cos_pi_div_twelve_sq, div_pow, Real.sq_sqrt (by norm_num)]
    have h3 : Real.sqrt 3 < 1.7321 := by
      rw [Real.sqrt_lt' (by norm_num)]; norm_num
    norm_num
    linarith
  have hlt : Real.arccos (445 / 2 / Real.sqrt 52675) < Real.pi / 12 := by
    by_contra hc
    push Not at hc
    have hle := Real.cos_le_cos_of_nonneg_of_le_pi (by positivity) (Real.arccos_le_pi _) hc
    have hs : 0 < Real.sqrt 52675 := Real.sqrt_pos.2 (by norm_num)
    rw [Real.cos_arccos (by linarith [show (0:ℝ) < 445 / 2 / Real.sqrt 52675 by positivity]) (by
      rw [div_le_one hs]; exact Real.le_sqrt_of_sq_le (by norm_num))] at hle
    linarith
  have ea : exactTrig.acos (445 / 2 / Real.sqrt 52675) = Real.arccos (445 / 2 / Real.sqrt 52675) := rfl
  rw [ea]
  linarith

/-- The round trip is not the identity: the green channel of (255, 65, 0) comes back as at most 64. -/
theorem C57_roundtrip_false : ∃ g : ℕ, g ≤ 64 ∧
    (hslFromRGB exactTrig 255 65 0 255).rgba exactTrig = (some 65535, some (257 * g), some 0, 65535) := by
  obtain ⟨h0, h1⟩ := hue_255_65_0
  rw [exact_rgba0 (M := 255) (m := 0) (by norm_num) (by norm_num) (by norm_num) (by norm_num) (by norm_num)]
  generalize getHue exactTrig 255 65 0 = t at *
  have w1 : hueWrap exactTrig (t + 120) = t + 120 := by
    rw [exact_wrap, if_neg (by linarith : ¬ (t + 120 < 0)), if_neg (by linarith)]
  have w2 : hueWrap exactTrig t = t := by
    rw [exact_wrap, if_neg (by linarith : ¬ (t < 0)), if_neg (by linarith)]
  have w3 : hueWrap exactTrig (t - 120) = t + 240 := by
    rw [exact_wrap, if_pos (by linarith : t - 120 < 0), if_neg (by linarith)]; ring
  have e1 : hueToRGB exactTrig (((0 : ℕ) : ℝ) / 255) (((255 : ℕ) : ℝ) / 255) (t + 120) = ((255 : ℕ) : ℝ) / 255 := by
    rw [exact_hueToRGB, w1, if_neg (by linarith), if_pos (by linarith)]
  have e2 : hueToRGB exactTrig (((0 : ℕ) : ℝ) / 255) (((255 : ℕ) : ℝ) / 255) t = t / 60 := by
    rw [exact_hueToRGB, w2, if_pos (by linarith)]; norm_num
  have e3 : hueToRGB exactTrig (((0 : ℕ) : ℝ) / 255) (((255 : ℕ) : ℝ) / 255) (t - 120) = ((0 : ℕ) : ℝ) / 255 := by
    rw [exact_hueToRGB, w3, if_neg (by linarith), if_neg (by linarith), if_neg (by linarith)]
  rw [e1, e2, e3, exact_zeroToOne 255 (le_refl _), exact_zeroToOne 0 (by norm_num)]
  obtain ⟨v, hv, ev⟩ := zeroToOne_byte exactTrig_ok (x := t / 60) (by linarith) (by linarith)
  refine ⟨v, ?_, by rw [ev]⟩
  -- the rounded value is at most 64
  have hle : roundK (255 * (t / 60)) ≤ 64 := by
    unfold roundK
    rw [if_pos (by positivity)]
    have : ⌊255 * (t / 60) + 1 / 2⌋ < 65 := by rw [Int.floor_lt]; push_cast; linarith
    omega
  have hge : 0 ≤ roundK (255 * (t / 60)) := by
    unfold roundK
    rw [if_pos (by positivity)]
    exact Int.floor_nonneg.2 (by positivity)
  have ez : zeroToOne exactTrig (t / 60) =
    if 0 ≤ roundK (255 * (t / 60)) ∧ roundK (255 * (t / 60)) < 4294967296 then
      some (((roundK (255 * (t / 60))).toNat ||| (roundK (255 * (t / 60))).toNat <<< 8) % 4294967296) else none := rfl
  rw [ez] at ev
  rw [if_pos ⟨hge, by omega⟩] at ev
  have hn : (roundK (255 * (t / 60))).toNat ≤ 64 := by omega
  generalize (roundK (255 * (t / 60))).toNat = n at *
  have e := Option.some.inj ev
  have := Nat.two_pow_add_eq_or_of_lt (i := 8) (b := n) (by omega) n
  rw [Nat.shiftLeft_eq, Nat.or_comm, Nat.mul_comm n (2 ^ 8), ← this] at e
  omega

/-- Non-vacuity: the assumptions on square root and arc cosine can be met over the rationals too, and a
concrete colour of each kind. -/
example : ∃ T : Trig ℚ, T.rnd = F64.rnd ∧ T.Ok :=
  ⟨_, rfl, C57_float64_applies (fun x => x + 1) (fun x => (1 - x) / 2)
    (fun n x _ h => by nlinarith [sq_nonneg ((n : ℚ) / 2 - 1)])
    (fun h0 h1 => by unfold pi64; constructor <;> linarith)⟩
example : ∃ c : HSL ℝ, 0 < c.s ∧ 0 ≤ c.h ∧ c.h ≤ 360 ∧ c.s ≤ 1 ∧ 0 ≤ c.l ∧ c.l ≤ 1 ∧ c.a ≤ 255 :=
  ⟨⟨200, 1 / 2, 1 / 3, 255⟩, by norm_num, by norm_num, by norm_num, by norm_num, by norm_num, by norm_num, by norm_num⟩
example : ((200 : ℕ), (200 : ℕ), (10 : ℕ)) ∈ [((200 : ℕ), 10, 10), (200, 200, 10), (10, 200, 10), (10, 200, 200), (10, 10, 200), (200, 10, 200)] := by
  decide

theorem outOfRange_false (lo hi : K) (x : Option K) : outOfRange lo hi x = false ↔ ∀ y ∈ x, lo ≤ y ∧ y ≤ hi := by
  cases x with
  | none => simp [outOfRange]
  | some y => simp [outOfRange]

/-- C57: `NewHSVColor` and `NewHSLColor` accept exactly components in range (or NaN, which passes every range check) and keep
them. -/
theorem C57_new (h s v : Option K) (a : ℕ) (c : Option K × Option K × Option K × ℕ) :
    (newHSV h s v a = some c ↔ ((∀ y ∈ h, 0 ≤ y ∧ y ≤ 360) ∧ (∀ y ∈ s, 0 ≤ y ∧ y ≤ 1) ∧ ∀ y ∈ v, 0 ≤ y ∧ y ≤ 1) ∧ c = (h, s, v, a)) ∧
    (newHSL h s v a = some c ↔ ((∀ y ∈ h, 0 ≤ y ∧ y ≤ 360) ∧ (∀ y ∈ s, 0 ≤ y ∧ y ≤ 1) ∧ ∀ y ∈ v, 0 ≤ y ∧ y ≤ 1) ∧ c = (h, s, v, a)) := by
  unfold newHSV newHSL
  rw [← outOfRange_false 0 360 h, ← outOfRange_false 0 1 s, ← outOfRange_false 0 1 v]
  cases outOfRange 0 360 h <;> cases outOfRange 0 1 s <;> cases outOfRange 0 1 v <;> simp [eq_comm]

/-- C57: what the conversions from RGB give is accepted. -/
theorem C57_new_of_rgb {T : Trig K} (hT : T.Ok) {r g b : ℕ} (a : ℕ) (hr : r ≤ 255) (hg : g ≤ 255) (hb : b ≤ 255) :
    (newHSV (some (hsvFromRGB T r g b a).h) (some (hsvFromRGB T r g b a).s) (some (hsvFromRGB T r g b a).v) a).isSome ∧
    (newHSL (some (hslFromRGB T r g b a).h) (some (hslFromRGB T r g b a).s) (some (hslFromRGB T r g b a).l) a).isSome := by
  obtain ⟨h1, h2, h3, -⟩ := C57_hsv_range hT a hr hg hb
  obtain ⟨g1, g2, g3, -⟩ := C57_hsl_range hT a hr hg hb
  rw [((C57_new _ _ _ a _).1).2 ⟨⟨by simpa using h1, by simpa using h2, by simpa using h3⟩, rfl⟩,
    ((C57_new _ _ _ a _).2).2 ⟨⟨by simpa using g1, by simpa using g2, by simpa using g3⟩, rfl⟩]
  exact ⟨rfl, rfl⟩

end Verif.Style
