import Verif.Proof.TileDistFloat

/-! # C104: distances in float64 -/

namespace Verif.CoverF.Dist
open Verif.F64
open Verif.Tid.Float (piC eps eps_pos rndR rnd_near fpi_near)
open Verif.Cover (radians arcLength)

theorem deg2rad_neg (d : ℚ) : deg2rad (-d) = -deg2rad d := by
  unfold deg2rad
  rw [neg_mul, rnd_neg, neg_div, rnd_neg]

/-- **C104.** The order of the two positions does not matter, to the last bit (the sine being odd). -/
theorem C104_symmetric (M : MathLib) (hs : ∀ q, M.sin (-q) = -M.sin q) (p q : ℚ × ℚ) : distance M p q = distance M q p := by
  have h1 : ∀ a b : ℚ, deg2rad (rnd (a - b)) = -deg2rad (rnd (b - a)) := by
    intro a b
    rw [← deg2rad_neg, ← rnd_neg, neg_sub]
  have h : haversine M p q = haversine M q p := by
    unfold haversine
    simp only
    rw [h1 q.2 p.2, h1 q.1 p.1, abs_neg, neg_div, rnd_neg, hs, neg_mul_neg, mul_comm (M.cos (deg2rad p.2))]
  unfold distance
  rw [h]

/-- **C104.** The distance from a position to itself is 0, wherever it is. -/
theorem C104_same_point (M : MathLib) (hs : M.sin 0 = 0) (hq : M.sqrt 0 = 0) (ha : ∀ x, M.atan2 0 x = 0) (p : ℚ × ℚ) :
    distance M p p = some 0 := by
  have h0 : deg2rad 0 = 0 := by simp [deg2rad, rnd_zero]
  have h : haversine M p p = 0 := by
    unfold haversine
    simp [rnd_zero, h0, hs]
  have h1 : ¬ (rnd (1 - 0) < 0) := by
    rw [sub_zero]
    exact not_lt.2 (rnd_pos (by norm_num)).le
  unfold distance sqrtNaN
  simp only [h]
  rw [if_neg (lt_irrefl _), if_neg h1]
  simp [hq, ha, rnd_zero]

theorem deg_right {u : ℚ} (h : |u| ≤ 90) : |(deg2rad u : ℝ)| ≤ Real.pi / 2 := by
  have mono : ∀ {a b : ℚ}, a ≤ b → deg2rad a ≤ deg2rad b := by
    intro a b hab
    unfold deg2rad
    have hp : 0 ≤ rnd piC := (rnd_pos (by unfold piC; norm_num)).le
    apply rnd_mono
    have := rnd_mono (mul_le_mul_of_nonneg_right hab hp)
    linarith
  have e : deg2rad 90 = 884279719003555 / 562949953421312 := by decide +kernel
  obtain ⟨h1, h2⟩ := abs_le.1 h
  have k1 := mono h2
  have k2 := mono h1
  rw [deg2rad_neg, e] at k2
  rw [e] at k1
  have k1' : (deg2rad u : ℝ) ≤ ((884279719003555 / 562949953421312 : ℚ) : ℝ) := Rat.cast_le.2 k1
  have k2' : ((-(884279719003555 / 562949953421312) : ℚ) : ℝ) ≤ deg2rad u := Rat.cast_le.2 k2
  push_cast at k1' k2'
  have := Real.pi_gt_d20
  refine abs_le.2 ⟨?_, ?_⟩ <;> norm_num at * <;> linarith

theorem hav_nonneg {M : MathLib} (hM : Accurate M) {p q : ℚ × ℚ} (hp : OnMap p) (hq : OnMap q) : 0 ≤ haversine M p q := by
  have nn : ∀ {a : ℚ}, 0 ≤ a → 0 ≤ rnd a := by
    intro a h
    have := rnd_mono h
    rwa [rnd_zero] at this
  have np : ∀ {a : ℚ}, a ≤ 0 → rnd a ≤ 0 := by
    intro a h
    have := rnd_mono h
    rwa [rnd_zero] at this
  have c1 := hM.cos_nonneg _ (deg_right hp.2)
  have c2 := hM.cos_nonneg _ (deg_right hq.2)
  unfold haversine
  refine nn (add_nonneg (nn (mul_self_nonneg _)) (nn ?_))
  have hc : 0 ≤ rnd (M.cos (deg2rad p.2) * M.cos (deg2rad q.2)) := nn (mul_nonneg c1 c2)
  rcases le_total 0 (M.sin (rnd (|deg2rad (rnd (q.1 - p.1))| / 2))) with h | h
  · exact mul_nonneg (nn (mul_nonneg hc h)) h
  · exact mul_nonneg_of_nonpos_of_nonpos (np (mul_nonpos_of_nonneg_of_nonpos hc h)) h

theorem ang_range (p q : ℝ × ℝ) : 0 ≤ ang p q / 2 ∧ ang p q / 2 ≤ Real.pi / 2 := by
  have h0 := InnerProductGeometry.angle_nonneg (Verif.Cover.onSphere p.1 p.2) (Verif.Cover.onSphere q.1 q.2)
  have h1 := InnerProductGeometry.angle_le_pi (Verif.Cover.onSphere p.1 p.2) (Verif.Cover.onSphere q.1 q.2)
  unfold ang
  exact ⟨by linarith, by linarith⟩

theorem arc_ang (p q : ℝ × ℝ) : arcLength 3963.190592 p q = 3963.190592 * (2 * (ang p q / 2)) := by
  unfold arcLength ang; ring

/-- **C104.** `Distance` gives a number unless the two positions are opposite each other on the globe to within 0.0025 miles. -/
theorem C104_defined {M : MathLib} (hM : Accurate M) {p q : ℚ × ℚ} (hp : OnMap p) (hq : OnMap q)
    (h : greatCircle p q ≤ Real.pi * 3963.190592 - 0.0025) : ∃ d, distance M p q = some d := by
  have hpi := Real.pi_lt_d2
  have hpi0 := Real.pi_pos
  unfold greatCircle at h
  rw [arc_ang] at h
  obtain ⟨t0, t1⟩ := ang_range ((p.1 : ℝ), (p.2 : ℝ)) ((q.1 : ℝ), (q.2 : ℝ))
  have hpt := parts hM hp hq
  rw [hav_eq] at hpt
  generalize ang ((p.1 : ℝ), (p.2 : ℝ)) ((q.1 : ℝ), (q.2 : ℝ)) / 2 = t at *
  have hc : 1.9e-7 ≤ Real.cos t := by
    rw [← Real.sin_pi_div_two_sub]
    have h1 := Real.mul_le_sin (x := Real.pi / 2 - t) (by linarith) (by linarith)
    have h2 : 3.1e-7 ≤ Real.pi / 2 - t := by norm_num at h ⊢; linarith
    have h6 : 0.63 ≤ 2 / Real.pi := by rw [le_div_iff₀ hpi0]; linarith
    have h7 : 0.63 * 3.1e-7 ≤ 2 / Real.pi * (Real.pi / 2 - t) := mul_le_mul h6 h2 (by norm_num) (by positivity)
    norm_num at h7 ⊢
    linarith
  have hc2 : 3.6e-14 ≤ Real.cos t ^ 2 := by
    have := pow_le_pow_left₀ (by norm_num) hc 2
    norm_num at this ⊢
    linarith
  have sq := Real.sin_sq_add_cos_sq t
  have h26 : 26 * eps ≤ 3e-14 := by unfold eps; norm_num
  have ha : (haversine M p q : ℝ) ≤ 1 := by
    have := (abs_le.1 hpt).2
    norm_num at h26 hc2
    linarith
  have ha' : haversine M p q ≤ 1 := by exact_mod_cast ha
  have hb : ¬ (rnd (1 - haversine M p q) < 0) := by
    have := rnd_mono (show 0 ≤ 1 - haversine M p q by linarith)
    rw [rnd_zero] at this
    exact not_lt.2 this
  unfold distance sqrtNaN
  simp only
  rw [if_neg (not_lt.2 (hav_nonneg hM hp hq)), if_neg hb]
  exact ⟨_, rfl⟩

/-- the computed half angle -/
theorem half_angle {M : MathLib} (hM : Accurate M) {a : ℚ} (a0 : 0 ≤ a) (a1 : a ≤ 1) {t : ℝ} (t0 : 0 ≤ t) (t1 : t ≤ Real.pi / 2)
    (h : |(a : ℝ) - Real.sin t ^ 2| ≤ 26 * eps) :
    ∃ d, |(M.atan2 (M.sqrt a) (M.sqrt (rnd (1 - a))) : ℝ) - t| ≤ d + 4 * eps ∧ 0 ≤ M.atan2 (M.sqrt a) (M.sqrt (rnd (1 - a))) ∧
      d ≤ 2.5e-7 ∧ (1.26e-4 ≤ t → t ≤ Real.pi / 2 - 1.26e-4 → d ≤ 2.6e-10) := by
  have e0 := eps_pos
  have e1 := eps_small
  have hpi := Real.pi_lt_d2
  have hpi0 := Real.pi_pos
  have a0' : (0 : ℝ) ≤ a := by exact_mod_cast a0
  have a1' : (a : ℝ) ≤ 1 := by exact_mod_cast a1
  -- the angle of the computed haversine
  set u := Real.arcsin (Real.sqrt a) with hu
  have su0 := Real.sqrt_nonneg (a : ℝ)
  have su1 : Real.sqrt a ≤ 1 := Real.sqrt_le_one.2 a1'
  have hsin : Real.sin u = Real.sqrt a := Real.sin_arcsin (by linarith) su1
  have u0 : 0 ≤ u := Real.arcsin_nonneg.2 su0
  have u1 : u ≤ Real.pi / 2 := Real.arcsin_le_pi_div_two _
  have hcos : Real.cos u = Real.sqrt (1 - a) := by
    rw [hu, Real.cos_arcsin, Real.sq_sqrt a0']
  have hsq : Real.sin u ^ 2 = a := by rw [hsin, Real.sq_sqrt a0']
  -- the square roots
  have b0 : 0 ≤ rnd (1 - a) := by
    have := rnd_mono (show 0 ≤ 1 - a by linarith)
    rwa [rnd_zero] at this
  have b0' : (0 : ℝ) ≤ (rnd (1 - a) : ℚ) := by exact_mod_cast b0
  have hyr := hM.sqrt a a0
  have hxr := hM.sqrt _ b0
  have hb := rndR (1 - a)
  push_cast at hb
  rw [abs_of_nonneg (show (0 : ℝ) ≤ 1 - a by linarith)] at hb
  have hbs := sqrt_rel b0' (show (0 : ℝ) ≤ 1 - a by linarith) hb
  have hc0 := Real.sqrt_nonneg (1 - (a : ℝ))
  have hy : |(M.sqrt a : ℝ) - Real.sin u| ≤ Real.sin u * (1.2 * eps) := by
    rw [hsin]
    refine hyr.trans ?_
    gcongr
    linarith
  have hx : |(M.sqrt (rnd (1 - a)) : ℝ) - Real.cos u| ≤ Real.cos u * (1.2 * eps) := by
    rw [hcos]
    refine (tri hxr hbs).trans ?_
    have := (abs_le.1 hbs).2
    have h3 : Real.sqrt ((rnd (1 - a) : ℚ) : ℝ) * eps ≤ (Real.sqrt (1 - a) * (1 + eps / 8)) * eps := by
      gcongr; linarith
    have h4 : 0 ≤ Real.sqrt (1 - (a : ℝ)) * eps := by positivity
    nlinarith
  have harg := arg_near u0 u1 hy hx
  have pos : ∀ {m : ℚ} {s : ℝ}, 0 ≤ s → |(m : ℝ) - s| ≤ s * eps → 0 ≤ m := by
    intro m s hs hm
    have h1 := (abs_le.1 hm).1
    have : (0 : ℝ) ≤ m := by nlinarith
    exact_mod_cast this
  have hat := hM.atan2 (M.sqrt a) (M.sqrt (rnd (1 - a))) (pos (Real.sqrt_nonneg _) hyr) (pos (Real.sqrt_nonneg _) hxr)
  have htot := tri (tri hat.1 harg) (le_refl |u - t|)
  obtain ⟨g1, g2, g3, g4⟩ := angle_gap u0 u1 t0 t1 (k := 26 * eps) (by rw [hsq]; exact h)
  have hj := Real.mul_le_sin (abs_nonneg (u - t)) g4
  have h6 : 0.63 ≤ 2 / Real.pi := by rw [le_div_iff₀ hpi0]; linarith
  have h7 : 0.63 * |u - t| ≤ Real.sin |u - t| := le_trans (by gcongr) hj
  have h26 : 26 * eps ≤ 2.31e-14 := by unfold eps; norm_num
  have hd := abs_nonneg (u - t)
  have hsm : Real.sin |u - t| ≤ 1.52e-7 := by
    refine le_of_sq_le_sq ?_ (by norm_num)
    norm_num at h26 g1 ⊢
    linarith
  have hdd : |u - t| ≤ 2.5e-7 := by norm_num at hsm h7 ⊢; linarith
  refine ⟨|u - t|, by linarith, hat.2, hdd, ?_⟩
  intro l1 l2
  obtain ⟨ha, hb⟩ := abs_le.1 hdd
  have hS : 1.585e-4 ≤ Real.sin (u + t) := by
    have key : ∀ w : ℝ, 2.517e-4 ≤ w → w ≤ Real.pi / 2 → 1.585e-4 ≤ Real.sin w := by
      intro w w0 w1
      have := Real.mul_le_sin (x := w) (by norm_num at w0; linarith) w1
      have h8 : 0.63 * 2.517e-4 ≤ 2 / Real.pi * w := mul_le_mul h6 w0 (by norm_num) (by positivity)
      norm_num at h8 ⊢
      linarith
    rcases le_total (u + t) (Real.pi / 2) with h9 | h9
    · exact key _ (by norm_num at *; linarith) h9
    · rw [← Real.sin_pi_sub (u + t)]
      exact key _ (by norm_num at *; linarith) (by linarith)
  have h10 : Real.sin |u - t| * 1.585e-4 ≤ 2.31e-14 := le_trans (by gcongr) (g2.trans h26)
  norm_num at h10 h7 ⊢
  linarith

/-- **C104.** A number that `Distance` gives is not negative and within 0.0025 miles (four metres) of the great-circle distance; for distances of
1 to 12449 miles (half the circumference is 12450.7) it is within 3 millionths of a mile (five millimetres). -/
theorem C104_accurate {M : MathLib} (hM : Accurate M) {p q : ℚ × ℚ} (hp : OnMap p) (hq : OnMap q) {d : ℚ} (h : distance M p q = some d) :
    0 ≤ d ∧ |(d : ℝ) - greatCircle p q| ≤ 0.0025 ∧
    (1 ≤ greatCircle p q → greatCircle p q ≤ 12449 → |(d : ℝ) - greatCircle p q| ≤ 0.000003) := by
  have e0 := eps_pos
  have e1 := eps_small
  have hpi := Real.pi_gt_d6
  unfold greatCircle
  rw [arc_ang]
  obtain ⟨t0, t1⟩ := ang_range ((p.1 : ℝ), (p.2 : ℝ)) ((q.1 : ℝ), (q.2 : ℝ))
  have hpt := parts hM hp hq
  rw [hav_eq] at hpt
  generalize ang ((p.1 : ℝ), (p.2 : ℝ)) ((q.1 : ℝ), (q.2 : ℝ)) / 2 = t at *
  have a0 := hav_nonneg hM hp hq
  unfold distance sqrtNaN at h
  simp only at h
  generalize haversine M p q = a at *
  by_cases hb : rnd (1 - a) < 0
  · rw [if_neg (not_lt.2 a0), if_pos hb] at h
    cases h
  rw [if_neg (not_lt.2 a0), if_neg hb] at h
  have a1 : a ≤ 1 := by
    by_contra hc
    have : 0 < rnd (a - 1) := rnd_pos (by linarith)
    rw [show 1 - a = -(a - 1) by ring, rnd_neg] at hb
    exact hb (by linarith)
  obtain ⟨g, h1, h2, h3, h4⟩ := half_angle hM a0 a1 t0 t1 hpt
  obtain rfl : rnd (rnd (2 * earthRadius) * M.atan2 (M.sqrt a) (M.sqrt (rnd (1 - a)))) = d := by simpa using h
  have hm := miles_near t0 t1 h1 (by norm_num at h3 e1 ⊢; linarith)
  refine ⟨?_, hm.trans (by norm_num at h3 e1 ⊢; linarith), ?_⟩
  · have h9 : 0 < earthRadius := rnd_pos (by norm_num)
    have hr : 0 ≤ rnd (2 * earthRadius) := (rnd_pos (mul_pos two_pos h9)).le
    have := rnd_mono (mul_nonneg hr h2)
    rwa [rnd_zero] at this
  · intro l1 l2
    have h5 := h4 (by norm_num at l1 ⊢; linarith) (by norm_num at l2 hpi ⊢; linarith)
    refine hm.trans ?_
    norm_num at h5 e1 ⊢
    linarith

theorem pick (x : ℝ) : ∃ q : ℚ, |(q : ℝ) - x| ≤ |x| * eps ∧ |(q : ℝ)| ≤ |x| ∧ (0 ≤ x → 0 ≤ q) := by
  have e0 := eps_pos
  have e1 := eps_small
  have key : ∀ x : ℝ, 0 < x → ∃ q : ℚ, |(q : ℝ) - x| ≤ x * eps ∧ 0 ≤ q ∧ (q : ℝ) ≤ x := by
    intro x hx
    obtain ⟨q, h1, h2⟩ := exists_rat_btwn (show x - x * eps < x by nlinarith)
    refine ⟨q, abs_le.2 ⟨by linarith, by nlinarith⟩, ?_, h2.le⟩
    have : (0 : ℝ) ≤ q := by nlinarith
    exact_mod_cast this
  rcases lt_trichotomy x 0 with hx | rfl | hx
  · obtain ⟨q, h1, h2, h3⟩ := key (-x) (by linarith)
    have h2' : (0 : ℝ) ≤ q := by exact_mod_cast h2
    refine ⟨-q, ?_, ?_, fun h => absurd h (by linarith)⟩
    · rw [abs_of_neg hx]
      push_cast
      rw [show -(q : ℝ) - x = -(q - -x) by ring, abs_neg]
      exact h1
    · push_cast
      rw [abs_neg, abs_of_neg hx, abs_of_nonneg h2']
      exact h3
  · exact ⟨0, by simp⟩
  · obtain ⟨q, h1, h2, h3⟩ := key x hx
    have h2' : (0 : ℝ) ≤ q := by exact_mod_cast h2
    refine ⟨q, ?_, ?_, fun _ => h2⟩
    · rw [abs_of_pos hx]; exact h1
    · rw [abs_of_pos hx, abs_of_nonneg h2']; exact h3

/-- 45 degrees in radians, and the nearest float64 to the sine of 45 degrees -/
def x45 : ℚ := 884279719003555 / 1125899906842624
def s45 : ℚ := 6369051672525773 / 9007199254740992

theorem x45_near : |(x45 : ℝ) - Real.pi / 4| ≤ 1e-16 := by
  have h1 := Real.pi_gt_d20
  have h2 := Real.pi_lt_d20
  unfold x45
  push_cast
  rw [abs_le]
  constructor <;> norm_num at * <;> linarith

theorem s45_near : |(s45 : ℝ) - Real.sqrt 2 / 2| ≤ 1e-16 := by
  have h1 : (1.4142135623730950 : ℝ) ≤ Real.sqrt 2 := Real.le_sqrt_of_sq_le (by norm_num)
  have h2 : Real.sqrt 2 ≤ 1.4142135623730951 := by
    rw [Real.sqrt_le_left (by norm_num)]; norm_num
  unfold s45
  push_cast
  rw [abs_le]
  constructor <;> norm_num at * <;> linarith

/-- **C104.** Between positions exactly opposite each other the result may be NaN: there is an accurate package `math` (with the correctly rounded
sine and cosine of 45 degrees) that makes it so for 45°N 0°E and 45°S 180°E. -/
theorem C104_nan : ∃ M, Accurate M ∧ distance M (0, 45) (180, -45) = none := by
  have e0 := eps_pos
  have e1 : (8e-16 : ℝ) ≤ eps := by unfold eps; norm_num
  choose g hg using pick
  let M : MathLib :=
    { sin := fun q => if q = x45 then s45 else if q = -x45 then -s45 else if q = 2 * x45 then 1 else g (Real.sin q)
      cos := fun q => if q = x45 ∨ q = -x45 then s45 else g (Real.cos q)
      sqrt := fun q => g (Real.sqrt q)
      atan2 := fun y x => g (Complex.arg ⟨x, y⟩) }
  have hs : |(s45 : ℝ) - Real.sin x45| ≤ eps := by
    have h1 := sin_lip (Real.pi / 4) x45
    rw [Real.sin_pi_div_four, abs_sub_comm (Real.pi / 4)] at h1
    refine (tri s45_near h1).trans ?_
    have := x45_near
    norm_num at this e1 ⊢
    linarith
  have hc : |(s45 : ℝ) - Real.cos x45| ≤ eps := by
    have h1 := cos_lip (Real.pi / 4) x45
    rw [Real.cos_pi_div_four, abs_sub_comm (Real.pi / 4)] at h1
    refine (tri s45_near h1).trans ?_
    have := x45_near
    norm_num at this e1 ⊢
    linarith
  have h1 : |(1 : ℝ) - Real.sin (2 * x45)| ≤ eps := by
    have h1 := sin_lip (Real.pi / 2) (2 * x45)
    rw [Real.sin_pi_div_two] at h1
    refine h1.trans ?_
    rw [show Real.pi / 2 - 2 * (x45 : ℝ) = 2 * (Real.pi / 4 - x45) by ring, abs_mul, abs_sub_comm (Real.pi / 4)]
    have := x45_near
    rw [abs_of_pos (show (0 : ℝ) < 2 by norm_num)]
    norm_num at this e1 ⊢
    linarith
  have s1 : |s45| ≤ 1 := by unfold s45; norm_num
  have g1 : ∀ x : ℝ, |x| ≤ 1 → |(g x : ℝ) - x| ≤ eps ∧ |g x| ≤ 1 := by
    intro x hx
    refine ⟨(hg x).1.trans (by nlinarith [abs_nonneg x]), ?_⟩
    have := (hg x).2.1.trans hx
    exact_mod_cast this
  refine ⟨M, ⟨?_, ?_, ?_, ?_, ?_⟩, ?_⟩
  · intro q _
    show |((if q = x45 then s45 else if q = -x45 then -s45 else if q = 2 * x45 then 1 else g (Real.sin q) : ℚ) : ℝ) - _| ≤ _ ∧
      |(if q = x45 then s45 else if q = -x45 then -s45 else if q = 2 * x45 then 1 else g (Real.sin q) : ℚ)| ≤ 1
    by_cases h2 : q = x45
    · rw [if_pos h2, h2]; exact ⟨hs, s1⟩
    rw [if_neg h2]
    by_cases h3 : q = -x45
    · rw [if_pos h3, h3]
      push_cast
      rw [Real.sin_neg, show -(s45 : ℝ) - -Real.sin x45 = -(s45 - Real.sin x45) by ring, abs_neg, abs_neg]
      exact ⟨hs, s1⟩
    rw [if_neg h3]
    by_cases h4 : q = 2 * x45
    · rw [if_pos h4, h4]
      push_cast
      exact ⟨h1, by norm_num⟩
    rw [if_neg h4]
    exact g1 _ (Real.abs_sin_le_one _)
  · intro q _
    show |((if q = x45 ∨ q = -x45 then s45 else g (Real.cos q) : ℚ) : ℝ) - _| ≤ _ ∧
      |(if q = x45 ∨ q = -x45 then s45 else g (Real.cos q) : ℚ)| ≤ 1
    by_cases h2 : q = x45 ∨ q = -x45
    · rw [if_pos h2]
      rcases h2 with h2 | h2
      · rw [h2]; exact ⟨hc, s1⟩
      · rw [h2]; push_cast; rw [Real.cos_neg]; exact ⟨hc, s1⟩
    rw [if_neg h2]
    exact g1 _ (Real.abs_cos_le_one _)
  · intro q hq
    show 0 ≤ (if q = x45 ∨ q = -x45 then s45 else g (Real.cos q) : ℚ)
    by_cases h2 : q = x45 ∨ q = -x45
    · rw [if_pos h2]; unfold s45; norm_num
    rw [if_neg h2]
    obtain ⟨h3, h4⟩ := abs_le.1 hq
    exact (hg _).2.2 (Real.cos_nonneg_of_neg_pi_div_two_le_of_le h3 h4)
  · intro q _
    have := (hg (Real.sqrt q)).1
    rwa [abs_of_nonneg (Real.sqrt_nonneg _)] at this
  · intro y x hy hx
    have hy' : (0 : ℝ) ≤ y := by exact_mod_cast hy
    have hx' : (0 : ℝ) ≤ x := by exact_mod_cast hx
    have a0 : 0 ≤ Complex.arg ⟨x, y⟩ := Complex.arg_nonneg_iff.2 hy'
    have a1 : |Complex.arg ⟨x, y⟩| ≤ Real.pi / 2 := Complex.abs_arg_le_pi_div_two_iff.2 hx'
    refine ⟨(hg _).1.trans ?_, (hg _).2.2 a0⟩
    have := Real.pi_lt_d2
    nlinarith
  · have d1 : rnd (deg2rad (rnd (-45 - 45)) / 2) = -x45 := by decide +kernel
    have d2 : rnd (|deg2rad (rnd (180 - 0))| / 2) = 2 * x45 := by decide +kernel
    have d3 : deg2rad 45 = x45 := by decide +kernel
    have d4 : deg2rad (-45) = -x45 := by decide +kernel
    have m1 : M.sin (-x45) = -s45 := by
      show (if -x45 = x45 then s45 else if -x45 = -x45 then -s45 else if -x45 = 2 * x45 then 1 else g (Real.sin (-x45 : ℚ))) = -s45
      rw [if_neg (by decide +kernel), if_pos rfl]
    have m2 : M.sin (2 * x45) = 1 := by
      show (if 2 * x45 = x45 then s45 else if 2 * x45 = -x45 then -s45 else if 2 * x45 = 2 * x45 then 1 else
        g (Real.sin (2 * x45 : ℚ))) = 1
      rw [if_neg (by decide +kernel), if_neg (by decide +kernel), if_pos rfl]
    have m3 : M.cos x45 = s45 := if_pos (Or.inl rfl)
    have m4 : M.cos (-x45) = s45 := if_pos (Or.inr rfl)
    have hh : haversine M (0, 45) (180, -45) = 4503599627370497 / 4503599627370496 := by
      unfold haversine
      simp only
      rw [d1, d2, d3, d4, m1, m2, m3, m4]
      decide +kernel
    have n1 : ¬ ((4503599627370497 / 4503599627370496 : ℚ) < 0) := by norm_num
    have n2 : rnd (1 - 4503599627370497 / 4503599627370496) < 0 := by decide +kernel
    unfold distance sqrtNaN
    simp only [hh]
    rw [if_neg n1, if_pos n2]

/-- **C104.** A detour is never shorter by more than 0.0075 miles. -/
theorem C104_detour {M : MathLib} (hM : Accurate M) {p q r : ℚ × ℚ} (hp : OnMap p) (hq : OnMap q) (hr : OnMap r) {a b c : ℚ}
    (h1 : distance M p r = some a) (h2 : distance M p q = some b) (h3 : distance M q r = some c) : (a : ℝ) ≤ b + c + 0.0075 := by
  have k1 := abs_le.1 (C104_accurate hM hp hr h1).2.1
  have k2 := abs_le.1 (C104_accurate hM hp hq h2).2.1
  have k3 := abs_le.1 (C104_accurate hM hq hr h3).2.1
  have := (Verif.Cover.C74_metric ((p.1 : ℝ), (p.2 : ℝ)) ((q.1 : ℝ), (q.2 : ℝ)) ((r.1 : ℝ), (r.2 : ℝ))).2.2.2.2
  rw [Verif.Cover.C74_great_circle, Verif.Cover.C74_great_circle, Verif.Cover.C74_great_circle] at this
  unfold greatCircle at k1 k2 k3
  linarith [k1.1, k1.2, k2.1, k2.2, k3.1, k3.2]

/-- Package `math` could be accurate. -/
theorem C104_accurate_exists : ∃ M, Accurate M := C104_nan.imp fun _ h => h.1

/-- Positions: Paris and Sydney. -/
example : OnMap (2.35, 48.86) ∧ OnMap (151.2, -33.87) := by
  unfold OnMap; norm_num [abs_le]

end Verif.CoverF.Dist
