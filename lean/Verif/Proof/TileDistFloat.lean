import Verif.Spec.TileDistFloat
import Verif.Proof.TileFloat
import Verif.Props.TileDist

/-! # Error analysis of `Distance` in float64 -/

namespace Verif.CoverF.Dist
open Verif.F64
open Verif.Tid.Float (piC eps eps_pos rndR rnd_near fpi_near)
open Verif.Cover (radians)

theorem eps_small : eps ≤ 1 / 1000000000000000 := by unfold eps; norm_num

/-- degrees to radians -/
theorem deg_near {d : ℚ} {D : ℝ} (h : |(d : ℝ) - D| ≤ 45 * eps) (hD : |D| ≤ 360) : |(deg2rad d : ℝ) - radians D| ≤ 4 * eps := by
  have e0 := eps_pos
  have e1 := eps_small
  have hp := Real.pi_lt_d2
  have hp0 := Real.pi_pos
  have h1 : |((d * rnd piC : ℚ) : ℝ) - D * Real.pi| ≤ 323 * eps := by
    push_cast
    have : (d : ℝ) * (rnd piC : ℚ) - D * Real.pi = (d - D) * ((rnd piC : ℚ) - Real.pi) + D * ((rnd piC : ℚ) - Real.pi)
      + (d - D) * Real.pi := by ring
    rw [this]
    refine (abs_add_le _ _).trans ?_
    refine (add_le_add (abs_add_le _ _) le_rfl).trans ?_
    rw [abs_mul, abs_mul, abs_mul, abs_of_pos hp0]
    have f := fpi_near
    have a1 : |(d : ℝ) - D| * |((rnd piC : ℚ) : ℝ) - Real.pi| ≤ 45 * eps * (eps / 2) := by gcongr
    have a2 : |D| * |((rnd piC : ℚ) : ℝ) - Real.pi| ≤ 360 * (eps / 2) := by gcongr
    have a3 : |(d : ℝ) - D| * Real.pi ≤ 45 * eps * 3.15 := by gcongr
    nlinarith
  have h2 := rnd_near h1 (B := 1134) (by
    rw [abs_mul, abs_of_pos hp0]
    have : |D| * Real.pi ≤ 360 * 3.15 := by gcongr
    linarith)
  have h3 : |((rnd (d * rnd piC) / 180 : ℚ) : ℝ) - radians D| ≤ 2.6 * eps := by
    push_cast
    have : ((rnd (d * rnd piC) : ℚ) : ℝ) / 180 - radians D = (((rnd (d * rnd piC) : ℚ) : ℝ) - D * Real.pi) / 180 := by
      unfold radians; ring
    rw [this, abs_div, abs_of_pos (show (0 : ℝ) < 180 by norm_num), div_le_iff₀ (by norm_num)]
    nlinarith
  have h4 := rnd_near h3 (B := 6.3) (by
    unfold radians
    rw [abs_mul, abs_div, abs_of_pos hp0, abs_of_pos (show (0 : ℝ) < 180 by norm_num)]
    have : |D| / 180 * Real.pi ≤ 360 / 180 * 3.15 := by gcongr
    linarith)
  unfold deg2rad
  nlinarith

theorem radians_abs {D B : ℝ} (h : |D| ≤ B) : |radians D| ≤ B / 180 * Real.pi := by
  unfold radians
  rw [abs_mul, abs_div, abs_of_pos Real.pi_pos, abs_of_pos (show (0 : ℝ) < 180 by norm_num)]
  have := Real.pi_pos
  gcongr

/-- half of an angle -/
theorem half_near {r : ℚ} {R : ℝ} (h : |(r : ℝ) - R| ≤ 4 * eps) (hR : |R| ≤ 6.3) : |((rnd (r / 2) : ℚ) : ℝ) - R / 2| ≤ 2.5 * eps := by
  have e0 := eps_pos
  have e1 := eps_small
  have h1 : |((r / 2 : ℚ) : ℝ) - R / 2| ≤ 2 * eps := by
    push_cast
    rw [← sub_div, abs_div, abs_of_pos (show (0 : ℝ) < 2 by norm_num)]
    linarith
  have h2 := rnd_near h1 (B := 3.15) (by
    rw [abs_div, abs_of_pos (show (0 : ℝ) < 2 by norm_num)]; linarith)
  nlinarith

theorem sin_lip (a b : ℝ) : |Real.sin a - Real.sin b| ≤ |a - b| := by
  have := Real.lipschitzWith_sin.dist_le_mul a b
  simpa [Real.dist_eq] using this

theorem cos_lip (a b : ℝ) : |Real.cos a - Real.cos b| ≤ |a - b| := by
  have := Real.lipschitzWith_cos.dist_le_mul a b
  simpa [Real.dist_eq] using this

theorem tri {a b c x y : ℝ} (h1 : |a - b| ≤ x) (h2 : |b - c| ≤ y) : |a - c| ≤ x + y := by
  have := abs_add_le (a - b) (b - c)
  rw [sub_add_sub_cancel] at this
  linarith

theorem sin_near {M : MathLib} (hM : Accurate M) {r : ℚ} {R : ℝ} (h : |(r : ℝ) - R| ≤ 2.5 * eps) (hR : |R| ≤ 3.15) :
    |(M.sin r : ℝ) - Real.sin R| ≤ 3.5 * eps := by
  have e1 := eps_small
  have e0 := eps_pos
  have hr : |(r : ℝ)| ≤ 4 := by
    have := abs_add_le ((r : ℝ) - R) R
    rw [sub_add_cancel] at this
    linarith
  have := tri (hM.sin r hr).1 (sin_lip r R)
  linarith

theorem cos_near {M : MathLib} (hM : Accurate M) {r : ℚ} {R : ℝ} (h : |(r : ℝ) - R| ≤ 4 * eps) (hR : |R| ≤ 3.15) :
    |(M.cos r : ℝ) - Real.cos R| ≤ 5 * eps := by
  have e1 := eps_small
  have e0 := eps_pos
  have hr : |(r : ℝ)| ≤ 4 := by
    have := abs_add_le ((r : ℝ) - R) R
    rw [sub_add_cancel] at this
    linarith
  have := tri (hM.cos r hr).1 (cos_lip r R)
  linarith

/-- a rounded product of numbers up to 1 -/
theorem mul_near {a b : ℚ} {A B x y : ℝ} (ha : |(a : ℝ) - A| ≤ x * eps) (hb : |(b : ℝ) - B| ≤ y * eps) (hA : |A| ≤ 1) (hB : |B| ≤ 1)
    (hx0 : 0 ≤ x) (hy0 : 0 ≤ y) (hx : x ≤ 30) (hy : y ≤ 30) :
    |((rnd (a * b) : ℚ) : ℝ) - A * B| ≤ (x + y + 0.2) * eps ∧ |A * B| ≤ 1 := by
  have e0 := eps_pos
  have e1 := eps_small
  have hAB : |A * B| ≤ 1 := by rw [abs_mul]; exact mul_le_one₀ hA (abs_nonneg _) hB
  have h1 : |((a * b : ℚ) : ℝ) - A * B| ≤ (x + y + 0.01) * eps := by
    push_cast
    have : (a : ℝ) * b - A * B = (a - A) * (b - B) + A * (b - B) + (a - A) * B := by ring
    rw [this]
    refine (abs_add_le _ _).trans ?_
    refine (add_le_add (abs_add_le _ _) le_rfl).trans ?_
    rw [abs_mul, abs_mul, abs_mul]
    have a1 : |(a : ℝ) - A| * |(b : ℝ) - B| ≤ (30 * eps) * (30 * eps) := by
      refine mul_le_mul (ha.trans (by gcongr)) (hb.trans (by gcongr)) (abs_nonneg _) (by positivity)
    have a2 : |A| * |(b : ℝ) - B| ≤ 1 * (y * eps) := by gcongr
    have a3 : |(a : ℝ) - A| * |B| ≤ x * eps * 1 := by gcongr
    nlinarith
  have h2 := rnd_near h1 hAB
  refine ⟨?_, hAB⟩
  have k : (x + y + 0.01) * eps ≤ 0.1 := by nlinarith
  have k2 : (1 + (x + y + 0.01) * eps) * (eps / 8) ≤ 1.1 * (eps / 8) := by gcongr; linarith
  linarith

/-- the exact haversine -/
noncomputable def hav (p q : ℝ × ℝ) : ℝ :=
  Real.sin (radians (q.2 - p.2) / 2) * Real.sin (radians (q.2 - p.2) / 2) +
    Real.cos (radians p.2) * Real.cos (radians q.2) * Real.sin (|radians (q.1 - p.1)| / 2) * Real.sin (|radians (q.1 - p.1)| / 2)

/-- the angle at the centre -/
noncomputable def ang (p q : ℝ × ℝ) : ℝ :=
  InnerProductGeometry.angle (Verif.Cover.onSphere p.1 p.2) (Verif.Cover.onSphere q.1 q.2)

theorem hav_eq (p q : ℝ × ℝ) : hav p q = Real.sin (ang p q / 2) ^ 2 := by
  obtain ⟨x, y⟩ := p
  obtain ⟨x', y'⟩ := q
  have hc : Real.cos (ang (x, y) (x', y')) = Real.cos (radians y) * Real.cos (radians y') * Real.cos (radians x' - radians x)
        + Real.sin (radians y) * Real.sin (radians y') := by
    unfold ang
    rw [InnerProductGeometry.cos_angle, Verif.Cover.norm_onSphere, Verif.Cover.norm_onSphere, Verif.Cover.inner_onSphere]; simp
  have hsub : ∀ a b, radians (a - b) = radians a - radians b := by
    intro a b; unfold radians; ring
  have hhalf : ∀ t : ℝ, Real.sin (t / 2) * Real.sin (t / 2) = (1 - Real.cos t) / 2 := by
    intro t
    have h1 := Real.cos_two_mul (t / 2)
    have h2 := Real.sin_sq_add_cos_sq (t / 2)
    rw [show 2 * (t / 2) = t by ring] at h1
    nlinarith
  unfold hav
  simp only
  rw [mul_assoc (Real.cos (radians y) * Real.cos (radians y')), hhalf, hhalf, pow_two, hhalf, hc, Real.cos_abs, hsub,
    hsub, Real.cos_sub (radians y')]
  ring

theorem castR {q : ℚ} {n : ℚ} (h : |q| ≤ n) : |(q : ℝ)| ≤ (n : ℝ) := by exact_mod_cast h

theorem dif_near {a b : ℚ} {B : ℚ} (ha : |a| ≤ B) (hb : |b| ≤ B) (hB : B ≤ 180) :
    |((rnd (b - a) : ℚ) : ℝ) - ((b : ℝ) - a)| ≤ 45 * eps ∧ |(b : ℝ) - a| ≤ 2 * B := by
  have ha' := castR ha
  have hb' := castR hb
  have hB' : (B : ℝ) ≤ 180 := by exact_mod_cast hB
  have h2 : |(b : ℝ) - a| ≤ 2 * B := (abs_sub _ _).trans (by linarith)
  have h := rndR (b - a)
  push_cast at h
  refine ⟨h.trans ?_, h2⟩
  have e0 := eps_pos
  nlinarith

theorem abs_near {a b x : ℝ} (h : |a - b| ≤ x) : |(|a| - |b|)| ≤ x := (abs_abs_sub_abs_le a b).trans h

/-- the parts of the haversine -/
theorem parts {M : MathLib} (hM : Accurate M) {p q : ℚ × ℚ} (hp : OnMap p) (hq : OnMap q) :
    |(haversine M p q : ℝ) - hav (p.1, p.2) (q.1, q.2)| ≤ 26 * eps := by
  have e0 := eps_pos
  have e1 := eps_small
  have hpi := Real.pi_lt_d2
  have hpi0 := Real.pi_pos
  have dlat := dif_near hp.2 hq.2 (by norm_num)
  have dlng := dif_near hp.1 hq.1 (by norm_num)
  have d1 : |(q.2 : ℝ) - p.2| ≤ 180 := by have := dlat.2; push_cast at this; linarith
  have d2 : |(q.1 : ℝ) - p.1| ≤ 360 := by have := dlng.2; push_cast at this; linarith
  have r1 := deg_near dlat.1 (d1.trans (by norm_num))
  have r2 := abs_near (deg_near dlng.1 d2)
  rw [← Rat.cast_abs] at r2
  have b1 : |radians ((q.2 : ℝ) - p.2)| ≤ 6.3 := (radians_abs d1).trans (by linarith)
  have b2 : |(|radians ((q.1 : ℝ) - p.1)|)| ≤ 6.3 := by rw [abs_abs]; exact (radians_abs d2).trans (by linarith)
  have s1 := sin_near hM (half_near r1 b1) (by rw [abs_div, abs_of_pos (show (0 : ℝ) < 2 by norm_num)]; linarith)
  have s2 := sin_near hM (half_near r2 b2) (by rw [abs_div, abs_of_pos (show (0 : ℝ) < 2 by norm_num)]; linarith)
  have lat : ∀ u : ℚ, |u| ≤ 90 → |(M.cos (deg2rad u) : ℝ) - Real.cos (radians u)| ≤ 5 * eps := by
    intro u hu
    have hu' := castR hu
    push_cast at hu'
    refine cos_near hM (deg_near (by simp; positivity) (hu'.trans (by norm_num))) ((radians_abs hu').trans (by linarith))
  have c1 := lat p.2 hp.2
  have c2 := lat q.2 hq.2
  have m1 := mul_near s1 s1 (Real.abs_sin_le_one _) (Real.abs_sin_le_one _) (by norm_num) (by norm_num) (by norm_num) (by norm_num)
  have m2 := mul_near c1 c2 (Real.abs_cos_le_one _) (Real.abs_cos_le_one _) (by norm_num) (by norm_num) (by norm_num) (by norm_num)
  have m3 := mul_near m2.1 s2 m2.2 (Real.abs_sin_le_one _) (by norm_num) (by norm_num) (by norm_num) (by norm_num)
  have m4 := mul_near m3.1 s2 m3.2 (Real.abs_sin_le_one _) (by norm_num) (by norm_num) (by norm_num) (by norm_num)
  unfold haversine hav
  simp only
  generalize rnd (M.sin (rnd (deg2rad (rnd (q.2 - p.2)) / 2)) * M.sin (rnd (deg2rad (rnd (q.2 - p.2)) / 2))) = U at *
  generalize rnd (rnd (rnd (M.cos (deg2rad p.2) * M.cos (deg2rad q.2)) * M.sin (rnd (|deg2rad (rnd (q.1 - p.1))| / 2))) *
    M.sin (rnd (|deg2rad (rnd (q.1 - p.1))| / 2))) = V at *
  have hs : |((U + V : ℚ) : ℝ) - (Real.sin (radians ((q.2 : ℝ) - p.2) / 2) * Real.sin (radians ((q.2 : ℝ) - p.2) / 2) +
      Real.cos (radians p.2) * Real.cos (radians q.2) * Real.sin (|radians ((q.1 : ℝ) - p.1)| / 2) *
        Real.sin (|radians ((q.1 : ℝ) - p.1)| / 2))| ≤ 25.5 * eps := by
    push_cast
    rw [add_sub_add_comm]
    refine (abs_add_le _ _).trans ?_
    have := m1.1
    have := m4.1
    nlinarith
  have := rnd_near hs (B := 2) ((abs_add_le _ _).trans (by linarith [m1.2, m4.2]))
  nlinarith

/-- sine of a difference of angles of the first quadrant, from the difference of the squares of their sines -/
theorem angle_gap {a b k : ℝ} (a0 : 0 ≤ a) (a1 : a ≤ Real.pi / 2) (b0 : 0 ≤ b) (b1 : b ≤ Real.pi / 2)
    (h : |Real.sin a ^ 2 - Real.sin b ^ 2| ≤ k) :
    Real.sin |a - b| ^ 2 ≤ k ∧ Real.sin |a - b| * Real.sin (a + b) ≤ k ∧ 0 ≤ Real.sin |a - b| ∧ |a - b| ≤ Real.pi / 2 := by
  have hpi := Real.pi_pos
  have hd : |a - b| ≤ Real.pi / 2 := abs_le.2 ⟨by linarith, by linarith⟩
  have hd0 := abs_nonneg (a - b)
  have hds : |a - b| ≤ a + b := abs_le.2 ⟨by linarith, by linarith⟩
  have hdt : |a - b| ≤ Real.pi - (a + b) := abs_le.2 ⟨by linarith, by linarith⟩
  have s0 : 0 ≤ Real.sin |a - b| := Real.sin_nonneg_of_nonneg_of_le_pi hd0 (by linarith)
  have t0 : 0 ≤ Real.sin (a + b) := Real.sin_nonneg_of_nonneg_of_le_pi (by linarith) (by linarith)
  have e : Real.sin a ^ 2 - Real.sin b ^ 2 = Real.sin (a - b) * Real.sin (a + b) := by
    rw [Real.sin_sub, Real.sin_add]
    have h1 := Real.sin_sq_add_cos_sq a
    have h2 := Real.sin_sq_add_cos_sq b
    have : Real.cos a ^ 2 = 1 - Real.sin a ^ 2 := by linarith
    have h3 : Real.cos b ^ 2 = 1 - Real.sin b ^ 2 := by linarith
    calc _ = Real.sin a ^ 2 * (1 - Real.sin b ^ 2) - (1 - Real.sin a ^ 2) * Real.sin b ^ 2 := by ring
      _ = _ := by rw [← h3, ← this]; ring
  have habs : |Real.sin (a - b)| = Real.sin |a - b| := by
    rcases abs_cases (a - b) with ⟨h1, h2⟩ | ⟨h1, h2⟩
    · rw [h1] at s0 ⊢; exact abs_of_nonneg s0
    · rw [h1] at s0 ⊢
      rw [Real.sin_neg] at s0 ⊢
      exact abs_of_nonpos (by linarith)
  have hm : Real.sin |a - b| * Real.sin (a + b) ≤ k := by
    rw [e, abs_mul, habs, abs_of_nonneg t0] at h
    exact h
  have hle : Real.sin |a - b| ≤ Real.sin (a + b) := by
    rcases le_total (a + b) (Real.pi / 2) with h1 | h1
    · exact Real.sin_le_sin_of_le_of_le_pi_div_two (by linarith) h1 hds
    · rw [← Real.sin_pi_sub (a + b)]
      exact Real.sin_le_sin_of_le_of_le_pi_div_two (by linarith) (by linarith) hdt
  exact ⟨by nlinarith, hm, s0, hd⟩

theorem sqrt_rel {b c k : ℝ} (hb : 0 ≤ b) (hc : 0 ≤ c) (h : |b - c| ≤ c * k) : |Real.sqrt b - Real.sqrt c| ≤ Real.sqrt c * k := by
  rcases eq_or_lt_of_le hc with h0 | h0
  · rw [← h0] at h ⊢
    have : b = 0 := by
      have := abs_nonneg (b - 0)
      have h2 : |b - 0| = 0 := by linarith [zero_mul k]
      simpa using h2
    simp [this]
  · have hs := Real.sqrt_pos.2 h0
    have hb' := Real.sqrt_nonneg b
    have e1 := Real.mul_self_sqrt hb
    have e2 := Real.mul_self_sqrt hc
    have e : b - c = (Real.sqrt b - Real.sqrt c) * (Real.sqrt b + Real.sqrt c) := by
      calc b - c = Real.sqrt b * Real.sqrt b - Real.sqrt c * Real.sqrt c := by rw [e1, e2]
        _ = _ := by ring
    rw [e, abs_mul, abs_of_pos (show 0 < Real.sqrt b + Real.sqrt c by linarith)] at h
    have h1 : |Real.sqrt b - Real.sqrt c| * Real.sqrt c ≤ (Real.sqrt c * k) * Real.sqrt c := by
      calc _ ≤ |Real.sqrt b - Real.sqrt c| * (Real.sqrt b + Real.sqrt c) := by gcongr; linarith
        _ ≤ c * k := h
        _ = (Real.sqrt c * Real.sqrt c) * k := by rw [e2]
        _ = _ := by ring
    exact le_of_mul_le_mul_right h1 hs

/-- the angle of a point close to the unit circle -/
theorem arg_near {x y t : ℝ} (t0 : 0 ≤ t) (t1 : t ≤ Real.pi / 2) (hy : |y - Real.sin t| ≤ Real.sin t * (1.2 * eps))
    (hx : |x - Real.cos t| ≤ Real.cos t * (1.2 * eps)) : |Complex.arg ⟨x, y⟩ - t| ≤ 2 * eps := by
  have e0 := eps_pos
  have e1 := eps_small
  have hpi := Real.pi_pos
  have hpi2 := Real.pi_lt_d2
  have s0 : 0 ≤ Real.sin t := Real.sin_nonneg_of_nonneg_of_le_pi t0 (by linarith)
  have c0 : 0 ≤ Real.cos t := Real.cos_nonneg_of_neg_pi_div_two_le_of_le (by linarith) t1
  have sq := Real.sin_sq_add_cos_sq t
  have y0 : 0.99 * Real.sin t ≤ y := by
    have := (abs_le.1 hy).1
    nlinarith
  have x0 : 0.99 * Real.cos t ≤ x := by
    have := (abs_le.1 hx).1
    nlinarith
  have hyn : 0 ≤ y := by nlinarith
  have hxn : 0 ≤ x := by nlinarith
  set z : ℂ := ⟨x, y⟩ with hz
  have a0 : 0 ≤ Complex.arg z := Complex.arg_nonneg_iff.2 hyn
  have a1 : |Complex.arg z| ≤ Real.pi / 2 := Complex.abs_arg_le_pi_div_two_iff.2 hxn
  rw [abs_of_nonneg a0] at a1
  have ec : ‖z‖ * Real.cos (Complex.arg z) = x := Complex.norm_mul_cos_arg z
  have es : ‖z‖ * Real.sin (Complex.arg z) = y := Complex.norm_mul_sin_arg z
  have hr : 0.99 ≤ ‖z‖ := by
    have h1 : ‖z‖ ^ 2 = x ^ 2 + y ^ 2 := by
      rw [Complex.sq_norm, Complex.normSq_apply]; simp [hz]; ring
    have h2 : (0.99 * Real.cos t) ^ 2 ≤ x ^ 2 := pow_le_pow_left₀ (by positivity) x0 2
    have h3 : (0.99 * Real.sin t) ^ 2 ≤ y ^ 2 := pow_le_pow_left₀ (by positivity) y0 2
    have h4 : (0.99 : ℝ) ^ 2 ≤ ‖z‖ ^ 2 := by nlinarith
    exact le_of_sq_le_sq h4 (norm_nonneg z)
  have hdiff : ‖z‖ * Real.sin (Complex.arg z - t) = (y - Real.sin t) * Real.cos t - (x - Real.cos t) * Real.sin t := by
    rw [Real.sin_sub, ← ec, ← es]; ring
  have hb : |‖z‖ * Real.sin (Complex.arg z - t)| ≤ 1.2 * eps := by
    rw [hdiff]
    refine (abs_sub _ _).trans ?_
    rw [abs_mul, abs_mul, abs_of_nonneg c0, abs_of_nonneg s0]
    have h1 : |y - Real.sin t| * Real.cos t ≤ Real.sin t * (1.2 * eps) * Real.cos t := by gcongr
    have h2 : |x - Real.cos t| * Real.sin t ≤ Real.cos t * (1.2 * eps) * Real.sin t := by gcongr
    have h3 : 2 * (Real.sin t * Real.cos t) ≤ 1 := by nlinarith [sq_nonneg (Real.sin t - Real.cos t)]
    nlinarith
  rw [abs_mul, abs_norm] at hb
  have hs : |Real.sin (Complex.arg z - t)| ≤ 1.22 * eps := by
    have := abs_nonneg (Real.sin (Complex.arg z - t))
    nlinarith
  have hd : |Complex.arg z - t| ≤ Real.pi / 2 := abs_le.2 ⟨by linarith, by linarith⟩
  have hj := Real.mul_le_sin (abs_nonneg (Complex.arg z - t)) hd
  have hsa : Real.sin |Complex.arg z - t| = |Real.sin (Complex.arg z - t)| := by
    rcases abs_cases (Complex.arg z - t) with ⟨h1, h2⟩ | ⟨h1, h2⟩
    · rw [h1, abs_of_nonneg]
      exact Real.sin_nonneg_of_nonneg_of_le_pi h2 (by rw [h1] at hd; linarith)
    · rw [h1, Real.sin_neg, abs_of_nonpos]
      have : 0 ≤ Real.sin (-(Complex.arg z - t)) := Real.sin_nonneg_of_nonneg_of_le_pi (by linarith) (by rw [h1] at hd; linarith)
      rw [Real.sin_neg] at this
      linarith
  rw [hsa] at hj
  have h5 : 2 / Real.pi * |Complex.arg z - t| ≤ 1.22 * eps := hj.trans hs
  have h6 : 0.63 ≤ 2 / Real.pi := by rw [le_div_iff₀ hpi]; linarith
  have := abs_nonneg (Complex.arg z - t)
  nlinarith

/-- the last line: from the half angle to miles -/
theorem miles_near {h : ℚ} {t d : ℝ} (t0 : 0 ≤ t) (t1 : t ≤ Real.pi / 2) (hd : |(h : ℝ) - t| ≤ d) (hd1 : d ≤ 0.001) :
    |((rnd (rnd (2 * earthRadius) * h) : ℚ) : ℝ) - 3963.190592 * (2 * t)| ≤ 7927 * d + 6000 * eps := by
  have e0 := eps_pos
  have e1 := eps_small
  have hpi2 := Real.pi_lt_d2
  have hd0 : 0 ≤ d := (abs_nonneg _).trans hd
  have r1 : |((earthRadius : ℚ) : ℝ) - 3963.190592| ≤ 500 * eps := by
    have h0 : |((3963190592 / 1000000 : ℚ) : ℝ) - 3963.190592| ≤ 0 := by
      rw [show ((3963190592 / 1000000 : ℚ) : ℝ) - 3963.190592 = 0 by push_cast; norm_num]; simp
    have := rnd_near h0 (B := 3964) (by rw [abs_of_pos (by norm_num)]; norm_num)
    unfold earthRadius
    linarith
  have r2 : |((2 * earthRadius : ℚ) : ℝ) - 7926.381184| ≤ 1000 * eps := by
    push_cast
    rw [show 2 * (earthRadius : ℝ) - 7926.381184 = 2 * ((earthRadius : ℝ) - 3963.190592) by ring, abs_mul]
    rw [abs_of_pos (show (0 : ℝ) < 2 by norm_num)]
    linarith
  have r3 := rnd_near r2 (B := 7927) (by rw [abs_of_pos (by norm_num)]; norm_num)
  have r4 : |((rnd (2 * earthRadius) : ℚ) : ℝ) - 7926.381184| ≤ 2000 * eps := by nlinarith
  generalize rnd (2 * earthRadius) = F at *
  have ht : |t| ≤ 1.575 := by rw [abs_of_nonneg t0]; linarith
  have r5 : |((F * h : ℚ) : ℝ) - 7926.381184 * t| ≤ 7926.4 * d + 3200 * eps := by
    push_cast
    rw [show (F : ℝ) * h - 7926.381184 * t = (F - 7926.381184) * (h - t) + (F - 7926.381184) * t + 7926.381184 * (h - t) by ring]
    refine (abs_add_le _ _).trans ?_
    refine (add_le_add (abs_add_le _ _) le_rfl).trans ?_
    rw [abs_mul, abs_mul, abs_mul, abs_of_pos (show (0 : ℝ) < 7926.381184 by norm_num)]
    have a1 : |(F : ℝ) - 7926.381184| * |(h : ℝ) - t| ≤ 2000 * eps * d := by gcongr
    have a2 : |(F : ℝ) - 7926.381184| * |t| ≤ 2000 * eps * 1.575 := by gcongr
    have a3 : 7926.381184 * |(h : ℝ) - t| ≤ 7926.381184 * d := by gcongr
    nlinarith
  have r6 := rnd_near r5 (B := 12500) (by
    rw [abs_mul, abs_of_pos (show (0 : ℝ) < 7926.381184 by norm_num)]
    linarith)
  rw [show 3963.190592 * (2 * t) = 7926.381184 * t by ring]
  nlinarith

end Verif.CoverF.Dist
