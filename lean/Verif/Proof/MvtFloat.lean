import Verif.Spec.MvtFloat
import Verif.Proof.TileFloat
import Verif.Props.MvtProject
import Verif.Props.TileFloat

/-! # Rounding errors of the lon/lat ↔ grid functions -/
namespace Verif.MvtProj.Float
open Verif.Go Verif.F64 Verif.Tid Verif.Tid.Float

theorem eps_small : eps ≤ 1 / 1000000 := by unfold eps; norm_num

/-- `mercatorPole` as a real -/
noncomputable def P : ℝ := ((pole : ℚ) : ℝ)

theorem P_pos : 0 < P := by unfold P pole; norm_num

theorem rndP : |((rnd pole : ℚ) : ℝ) - P| ≤ P * (eps / 8) := by
  have := rndR pole
  have h := P_pos
  unfold P at *
  rwa [abs_of_pos h] at this

/-! ## eastings -/

theorem kx_near : |((rnd (pole / 180) : ℚ) : ℝ) - P / 180| ≤ P / 180 * (eps / 8) := by
  have := rndR (pole / 180)
  have h := P_pos
  have e : ((pole / 180 : ℚ) : ℝ) = P / 180 := by unfold P; push_cast; ring
  rw [e, abs_of_pos (show 0 < P / 180 by positivity)] at this
  exact this

theorem east_near {q : ℚ} {lng : ℝ} (h : |(q : ℝ) - lng| ≤ 70 * eps) (hB : |lng| ≤ 600) :
    |((rnd (rnd (pole / 180) * q) : ℚ) : ℝ) - P * (lng / 180)| ≤ 2 * eps * P := by
  have he := eps_pos
  have he1 := eps_small
  have hP := P_pos
  have hk := kx_near
  generalize rnd (pole / 180) = k at hk
  have hq : |(q : ℝ)| ≤ 601 := by
    have : (q : ℝ) = ((q : ℝ) - lng) + lng := by ring
    rw [this]
    exact (abs_add_le _ _).trans (by linarith)
  have h1 : |((k * q : ℚ) : ℝ) - P * (lng / 180)| ≤ P * (0.81 * eps) := by
    rw [Rat.cast_mul]
    have e : (k : ℝ) * q - P * (lng / 180) = ((k : ℝ) - P / 180) * q + P / 180 * ((q : ℝ) - lng) := by ring
    rw [e]
    refine (abs_add_le _ _).trans ?_
    rw [abs_mul, abs_mul, abs_of_pos (by positivity : 0 < P / 180)]
    have a : |(k : ℝ) - P / 180| * |(q : ℝ)| ≤ P / 180 * (eps / 8) * 601 := mul_le_mul hk hq (abs_nonneg _) (by positivity)
    have b : P / 180 * |(q : ℝ) - lng| ≤ P / 180 * (70 * eps) := by gcongr
    have : 0 < P * eps := by positivity
    linarith
  have h2 : |P * (lng / 180)| ≤ P * 3.4 := by
    rw [abs_mul, abs_of_pos hP]
    gcongr
    rw [abs_div, abs_of_pos (show (0 : ℝ) < 180 by norm_num)]
    linarith
  refine (rnd_near h1 h2).trans ?_
  have : 0 < P * eps := by positivity
  have h3 : P * (0.81 * eps) * (eps / 8) ≤ P * eps * 0.01 := by nlinarith
  linarith

/-! ## northings -/

theorem L_half {φ : ℝ} (h1 : -(Real.pi / 2) < φ) (h2 : φ < Real.pi / 2) :
    Real.log (Real.tan (Real.pi / 4 + φ / 2)) = L φ := by
  rw [log_tan_half h1 h2]
  unfold L
  rw [log_tan_cos h1 h2]

theorem angle_near (lat : ℚ) (h : |(lat : ℝ)| ≤ 85.5) :
    |((rnd (rnd (rnd (90 + lat) * rnd piC) / 360) : ℚ) : ℝ) - (Real.pi / 4 + lat * (Real.pi / 180) / 2)| ≤ 0.83 * eps := by
  have he := eps_pos
  have he1 := eps_small
  have hpi := Real.pi_pos
  have hpi2 := Real.pi_lt_d4
  obtain ⟨l1, l2⟩ := abs_le.mp h
  have a : |((rnd (90 + lat) : ℚ) : ℝ) - (90 + lat)| ≤ 22 * eps :=
    (rnd_near (q := 90 + lat) (x := 90 + (lat : ℝ)) (d := 0) (B := 175.5) (by push_cast; simp)
      (by rw [abs_le]; constructor <;> linarith)).trans (by linarith)
  generalize rnd (90 + lat) = aq at a
  have hx0 : (0 : ℝ) < 90 + lat := by linarith
  have hx1 : (90 : ℝ) + lat ≤ 175.5 := by linarith
  have e0 : Real.pi / 4 + (lat : ℝ) * (Real.pi / 180) / 2 = (90 + (lat : ℝ)) * Real.pi / 360 := by ring
  rw [e0]
  generalize (90 : ℝ) + lat = x at *
  have hf := fpi_near
  generalize rnd piC = f at hf
  have hfB : |(f : ℝ)| ≤ 3.15 := by
    have : (f : ℝ) = ((f : ℝ) - Real.pi) + Real.pi := by ring
    rw [this]
    refine (abs_add_le _ _).trans ?_
    rw [abs_of_pos hpi]
    linarith
  have b1 : |((aq * f : ℚ) : ℝ) - x * Real.pi| ≤ 157.1 * eps := by
    rw [Rat.cast_mul]
    have e : (aq : ℝ) * f - x * Real.pi = ((aq : ℝ) - x) * f + x * ((f : ℝ) - Real.pi) := by ring
    rw [e]
    refine (abs_add_le _ _).trans ?_
    rw [abs_mul, abs_mul, abs_of_pos hx0]
    have p1 : |(aq : ℝ) - x| * |(f : ℝ)| ≤ 22 * eps * 3.15 := mul_le_mul a hfB (abs_nonneg _) (by linarith)
    have p2 : x * |(f : ℝ) - Real.pi| ≤ 175.5 * (eps / 2) := mul_le_mul hx1 hf (abs_nonneg _) (by norm_num)
    linarith
  have hB : |x * Real.pi| ≤ 551.5 := by
    rw [abs_of_pos (by positivity)]
    calc x * Real.pi ≤ 175.5 * 3.1416 := by gcongr
      _ ≤ 551.5 := by norm_num
  have b : |((rnd (aq * f) : ℚ) : ℝ) - x * Real.pi| ≤ 226.1 * eps := (rnd_near b1 hB).trans (by nlinarith)
  generalize rnd (aq * f) = bq at b
  have c1 : |((bq / 360 : ℚ) : ℝ) - x * Real.pi / 360| ≤ 226.1 / 360 * eps := by
    rw [Rat.cast_div, Rat.cast_ofNat, ← sub_div, abs_div, abs_of_pos (show (0 : ℝ) < 360 by norm_num)]
    linarith
  have hB2 : |x * Real.pi / 360| ≤ 551.5 / 360 := by
    rw [abs_div, abs_of_pos (show (0 : ℝ) < 360 by norm_num)]
    gcongr
  exact (rnd_near c1 hB2).trans (by nlinarith)

/-- dividing by the rounded π -/
theorem div_pi_near {l : ℚ} {Λ d : ℝ} (hl : |(l : ℝ) - Λ| ≤ d * eps) (hΛ : |Λ| ≤ 4.1) (hd0 : 0 ≤ d) (hd : d ≤ 1000) :
    |((rnd (l / rnd piC) : ℚ) : ℝ) - Λ / Real.pi| ≤ (d * 0.319 + 0.5) * eps ∧ |Λ / Real.pi| ≤ 1.31 := by
  have he := eps_pos
  have he1 := eps_small
  have hpi := Real.pi_gt_d4
  have hpi0 := Real.pi_pos
  have hfpi := abs_le.mp fpi_near
  have hfn := fpi_near
  generalize rnd piC = f at hfpi hfn
  have hfp : (3.14 : ℝ) ≤ (f : ℝ) := by linarith
  have hfp0 : 0 < (f : ℝ) := by linarith
  have hΛpi : |Λ / Real.pi| ≤ 1.31 := by
    rw [abs_div, abs_of_pos hpi0, div_le_iff₀ hpi0]; linarith
  refine ⟨?_, hΛpi⟩
  have hdiv : |((l / f : ℚ) : ℝ) - Λ / Real.pi| ≤ (d * 0.3186 + 0.22) * eps := by
    rw [Rat.cast_div]
    have e : (l : ℝ) / (f : ℝ) - Λ / Real.pi =
        ((l : ℝ) - Λ) / (f : ℝ) + (Λ / Real.pi) * ((Real.pi - (f : ℝ)) / (f : ℝ)) := by
      field_simp; ring
    rw [e]
    refine (abs_add_le _ _).trans ?_
    have e1 : |((l : ℝ) - Λ) / (f : ℝ)| ≤ d * 0.3186 * eps := by
      rw [abs_div, abs_of_pos hfp0, div_le_iff₀ hfp0]
      have : 0 ≤ d * eps := by positivity
      nlinarith
    have e2 : |(Λ / Real.pi) * ((Real.pi - (f : ℝ)) / (f : ℝ))| ≤ 0.22 * eps := by
      rw [abs_mul, abs_div (Real.pi - _), abs_of_pos hfp0, abs_sub_comm]
      have a2 : |(f : ℝ) - Real.pi| / (f : ℝ) ≤ 0.16 * eps := by
        rw [div_le_iff₀ hfp0]
        have : 0.16 * eps * 3.14 ≤ 0.16 * eps * f := by gcongr
        linarith
      calc _ ≤ 1.31 * (0.16 * eps) := by gcongr
        _ ≤ 0.22 * eps := by linarith
    linarith
  refine (rnd_near hdiv hΛpi).trans ?_
  have h1 : (d * 0.3186 + 0.22) * eps ≤ 0.1 := by
    calc (d * 0.3186 + 0.22) * eps ≤ (1000 * 0.3186 + 0.22) * (1 / 1000000) := by gcongr
      _ ≤ 0.1 := by norm_num
  have h2 : (1.31 + (d * 0.3186 + 0.22) * eps) * (eps / 8) ≤ (1.31 + 0.1) * (eps / 8) := by gcongr
  have h3 : 0 ≤ d * eps := by positivity
  linarith

theorem log_rel {a T : ℝ} (hT : 0 < T) (h : |a - T| ≤ T * eps) : 0 < a ∧ |Real.log a - Real.log T| ≤ 2 * eps := by
  have he := eps_pos
  have he1 := eps_small
  obtain ⟨h1, h2⟩ := abs_le.mp h
  have ha : 0 < a := by nlinarith
  refine ⟨ha, ?_⟩
  rw [← Real.log_div ha.ne' hT.ne']
  have hq : 0 < a / T := by positivity
  have q1 : 1 - eps ≤ a / T := by rw [le_div_iff₀ hT]; linarith
  have q2 : a / T ≤ 1 + eps := by rw [div_le_iff₀ hT]; linarith
  generalize a / T = x at *
  have u := Real.log_le_sub_one_of_pos hq
  have l := Real.one_sub_inv_le_log_of_pos hq
  rw [abs_le]
  refine ⟨?_, by linarith⟩
  have : x⁻¹ ≤ 1 + 2 * eps := by
    rw [inv_le_comm₀ hq (by linarith), inv_le_iff_one_le_mul₀ (by linarith)]
    nlinarith
  linarith

/-- the unclamped northing -/
theorem north_near {M : MathExp} (hM : AccurateExp M) (lat : ℚ) (h : |(lat : ℝ)| ≤ 85.5) :
    |((rnd (rnd (M.log (M.tan (rnd (rnd (rnd (90 + lat) * rnd piC) / 360))) / rnd piC) * rnd pole) : ℚ) : ℝ) -
      P * (L (lat * (Real.pi / 180)) / Real.pi)| ≤ 11 * eps * P := by
  have he := eps_pos
  have he1 := eps_small
  have hP := P_pos
  have hpi := Real.pi_pos
  have hpi1 := Real.pi_gt_d4
  have hpi2 := Real.pi_lt_d4
  have hu := angle_near lat h
  obtain ⟨_, hφ⟩ := rad_near lat h
  generalize rnd (rnd (rnd (90 + lat) * rnd piC) / 360) = u at hu
  generalize (lat : ℝ) * (Real.pi / 180) = φ at *
  obtain ⟨u1, u2⟩ := abs_le.mp hu
  obtain ⟨p1, p2⟩ := abs_le.mp hφ
  have hφ' : |2 * (u : ℝ) - Real.pi / 2| ≤ 1.4923 := by rw [abs_le]; constructor <;> linarith
  have hφφ : |(2 * (u : ℝ) - Real.pi / 2) - φ| ≤ 1.66 * eps := by rw [abs_le]; constructor <;> linarith
  obtain ⟨w1, w2⟩ := abs_le.mp hφ'
  have hlt : Real.log (Real.tan u) = L (2 * (u : ℝ) - Real.pi / 2) := by
    rw [← L_half (by linarith) (by linarith)]
    congr 2
    ring
  have hT : 0 < Real.tan u := Real.tan_pos_of_pos_of_lt_pi_div_two (by linarith) (by linarith)
  have ht := hM.tan u (by rw [abs_le]; constructor <;> linarith)
  rw [abs_of_pos hT] at ht
  obtain ⟨ha, hlr⟩ := log_rel hT ht
  have hlip := L_lip hφ' (hφ.trans (by norm_num))
  have hLa := L_abs (hφ.trans (by norm_num) : |φ| ≤ 1.4923)
  have hLa' := L_abs hφ'
  rw [hlt] at hlr
  generalize M.tan u = a at *
  have hlog := hM.lib.log a (by exact_mod_cast ha)
  generalize L (2 * (u : ℝ) - Real.pi / 2) = Λ' at *
  generalize L φ = Λ at *
  have hlB : |Real.log (a : ℝ)| ≤ 4.1 := by
    have : Real.log (a : ℝ) = (Real.log (a : ℝ) - Λ') + Λ' := by ring
    rw [this]
    exact (abs_add_le _ _).trans (by linarith)
  have hl : |(M.log a : ℝ) - Λ| ≤ 28 * eps := by
    have e : (M.log a : ℝ) - Λ = ((M.log a : ℝ) - Real.log a) + ((Real.log a - Λ') + (Λ' - Λ)) := by ring
    rw [e]
    refine (abs_add_le _ _).trans ?_
    have e2 := abs_add_le (Real.log (a : ℝ) - Λ') (Λ' - Λ)
    have : |Real.log (a : ℝ)| * eps ≤ 4.1 * eps := by gcongr
    linarith
  obtain ⟨hd, hdB⟩ := div_pi_near hl (by linarith) (by norm_num) (by norm_num)
  generalize rnd (M.log a / rnd piC) = dq at hd
  generalize Λ / Real.pi = D at *
  have hr := rndP
  generalize rnd pole = rp at hr
  have hd' : |(dq : ℝ) - D| ≤ 9.5 * eps := hd.trans (by linarith)
  have hdq : |(dq : ℝ)| ≤ 1.32 := by
    have : (dq : ℝ) = ((dq : ℝ) - D) + D := by ring
    rw [this]
    exact (abs_add_le _ _).trans (by linarith)
  have hm : |((dq * rp : ℚ) : ℝ) - P * D| ≤ P * (9.7 * eps) := by
    rw [Rat.cast_mul]
    have e : (dq : ℝ) * rp - P * D = (dq : ℝ) * ((rp : ℝ) - P) + P * ((dq : ℝ) - D) := by ring
    rw [e]
    refine (abs_add_le _ _).trans ?_
    rw [abs_mul, abs_mul, abs_of_pos hP]
    have q1 : |(dq : ℝ)| * |(rp : ℝ) - P| ≤ 1.32 * (P * (eps / 8)) := mul_le_mul hdq hr (abs_nonneg _) (by norm_num)
    have q2 : P * |(dq : ℝ) - D| ≤ P * (9.5 * eps) := by gcongr
    have : 0 < P * eps := by positivity
    linarith
  have hB : |P * D| ≤ P * 1.31 := by
    rw [abs_mul, abs_of_pos hP]; gcongr
  refine (rnd_near hm hB).trans ?_
  have : 0 < P * eps := by positivity
  have h3 : P * (9.7 * eps) * (eps / 8) ≤ P * eps * 0.01 := by nlinarith
  linarith

theorem clampP_near {y : ℚ} {Y d : ℝ} (h : |(y : ℝ) - Y| ≤ d) :
    |((max (-rnd pole) (min y (rnd pole)) : ℚ) : ℝ) - max (-P) (min Y P)| ≤ d + P * (eps / 8) := by
  have hr := rndP
  generalize rnd pole = rp at hr
  push_cast
  obtain ⟨a, b⟩ := abs_le.mp h
  obtain ⟨c, e⟩ := abs_le.mp hr
  have hd : 0 ≤ d := (abs_nonneg _).trans h
  have hp : 0 ≤ P * (eps / 8) := (abs_nonneg _).trans hr
  rw [abs_le]
  constructor
  · rw [neg_le_sub_iff_le_add]
    rcases le_total Y P with h1 | h1 <;> rcases le_total (y : ℝ) rp with h2 | h2 <;>
      simp only [min_eq_left h1, min_eq_right h1, min_eq_left h2, min_eq_right h2] <;>
      apply max_le <;>
      first
        | (have := le_max_left (-(rp : ℝ)) (y : ℝ); linarith)
        | (have := le_max_right (-(rp : ℝ)) (y : ℝ); linarith)
        | (have := le_max_left (-(rp : ℝ)) (rp : ℝ); linarith)
        | (have := le_max_right (-(rp : ℝ)) (rp : ℝ); linarith)
  · rw [sub_le_iff_le_add]
    rcases le_total Y P with h1 | h1 <;> rcases le_total (y : ℝ) rp with h2 | h2 <;>
      simp only [min_eq_left h1, min_eq_right h1, min_eq_left h2, min_eq_right h2] <;>
      apply max_le <;>
      first
        | (have := le_max_left (-P) Y; linarith)
        | (have := le_max_right (-P) Y; linarith)
        | (have := le_max_left (-P) P; linarith)
        | (have := le_max_right (-P) P; linarith)

theorem convert_near {M : MathExp} (hM : AccurateExp M) (p : ℚ × ℚ) (h : |(p.2 : ℝ)| ≤ 85.5) :
    |((convertPoint M.toMathLib p).2 : ℝ) - max (-P) (min (P * (L (p.2 * (Real.pi / 180)) / Real.pi)) P)| ≤ 12 * eps * P := by
  have he := eps_pos
  have hP := P_pos
  refine (clampP_near (north_near hM p.2 h)).trans ?_
  have : 0 < P * eps := by positivity
  linarith

/-! ## the cursor -/

theorem edge_west (M : MathLib) {t : TileID} (h : Small t) (y : ℚ) :
    |((convertPoint M ((ul M t).1, y)).1 : ℝ) - P * (2 * t.X / 2 ^ t.Z - 1)| ≤ 160 * eps * P := by
  have he := eps_pos
  have hP := P_pos
  obtain ⟨a, b⟩ := lon_near M h
  have := east_near a (b.trans (by norm_num))
  have e : (Tid.ul t).1 / 180 = 2 * (t.X : ℝ) / 2 ^ t.Z - 1 := by unfold Tid.ul; simp only; ring
  rw [e] at this
  refine this.trans ?_
  have : 0 < P * eps := by positivity
  linarith

theorem edge_north {M : MathExp} (hM : AccurateExp M) {t : TileID} (h : Small t) (x : ℚ) :
    |((convertPoint M.toMathLib (x, (ul M.toMathLib t).2)).2 : ℝ) - P * (1 - 2 * t.Y / 2 ^ t.Z)| ≤ 160 * eps * P := by
  have he := eps_pos
  have he1 := eps_small
  have hP := P_pos
  have hpi := Real.pi_pos
  have hpi2 := Real.pi_lt_d6
  have a := lat_near hM.lib h
  obtain ⟨b, l⟩ := lat_abs h
  have f0 : (0 : ℝ) ≤ (t.Y : ℝ) / 2 ^ t.Z := div_nonneg (by exact_mod_cast h.2.2.1) (by positivity)
  have f1 : (t.Y : ℝ) / 2 ^ t.Z ≤ 1 := by rw [div_le_one (by positivity)]; exact_mod_cast h.2.2.2.1
  have ew : 2 * (t.Y : ℝ) / 2 ^ t.Z = 2 * ((t.Y : ℝ) / 2 ^ t.Z) := by ring
  rw [ew] at l ⊢
  generalize (t.Y : ℝ) / 2 ^ t.Z = w at *
  obtain ⟨a1, a2⟩ := abs_le.mp a
  obtain ⟨b1, b2⟩ := abs_le.mp b
  have hq : |((ul M.toMathLib t).2 : ℝ)| ≤ 85.5 := by rw [abs_le]; constructor <;> linarith
  have c := convert_near hM (x, (ul M.toMathLib t).2) hq
  simp only at c
  generalize (ul M.toMathLib t).2 = lat at *
  have k0 : 0 < Real.pi / 180 := by positivity
  have k1 : Real.pi / 180 ≤ 3.141593 / 180 := by gcongr
  have dom : ∀ x : ℝ, |x| ≤ 85.5 → |x * (Real.pi / 180)| ≤ 1.4923 := by
    intro x hx
    rw [abs_mul, abs_of_pos k0]
    calc |x| * (Real.pi / 180) ≤ 85.5 * (3.141593 / 180) := by gcongr
      _ ≤ 1.4923 := by norm_num
  have lip := L_lip (dom _ hq) (dom _ (b.trans (by norm_num)))
  rw [l, ← sub_mul, abs_mul, abs_of_pos k0] at lip
  generalize L (lat * (Real.pi / 180)) = Λ at *
  have hΛ : |Λ / Real.pi - (1 - 2 * w)| ≤ 138 * eps := by
    have e : Λ / Real.pi - (1 - 2 * w) = (Λ - Real.pi * (1 - 2 * w)) / Real.pi := by field_simp
    rw [e, abs_div, abs_of_pos hpi, div_le_iff₀ hpi]
    calc _ ≤ _ := lip
      _ ≤ 13 * (1900 * eps * (Real.pi / 180)) := by gcongr
      _ ≤ 138 * eps * Real.pi := by
        have : 0 < eps * Real.pi := by positivity
        linarith
  have hcl : |max (-P) (min (P * (Λ / Real.pi)) P) - P * (1 - 2 * w)| ≤ 138 * eps * P := by
    obtain ⟨d1, d2⟩ := abs_le.mp hΛ
    generalize Λ / Real.pi = D at *
    have g1 : P * (D - (1 - 2 * w)) ≤ P * (138 * eps) := by gcongr
    have g2 : P * (-(138 * eps)) ≤ P * (D - (1 - 2 * w)) := by gcongr
    have g3 : 0 ≤ P * w := by positivity
    have g4 : P * w ≤ P * 1 := by gcongr
    have g5 : 0 < P * eps := by positivity
    rw [abs_le]
    constructor
    · rw [neg_le_sub_iff_le_add]
      rcases le_total (P * D) P with h1 | h1 <;> simp only [min_eq_left h1, min_eq_right h1]
      · have := le_max_right (-P) (P * D); linarith
      · have := le_max_right (-P) P; linarith
    · rw [sub_le_iff_le_add]
      apply max_le
      · linarith
      · exact (min_le_left _ _).trans (by linarith)
  have e : ∀ A B C : ℝ, A - C = (A - B) + (B - C) := by intros; ring
  rw [e _ (max (-P) (min (P * (Λ / Real.pi)) P)) _]
  refine (abs_add_le _ _).trans ?_
  have g5 : 0 < P * eps := by positivity
  linarith

/-- a rounded difference of two values of the map, at most two tiles apart -/
theorem delta_near {a b : ℚ} {A B n r : ℝ} (hn : 1 ≤ n) (ha : |(a : ℝ) - A| ≤ 160 * eps * P)
    (hb : |(b : ℝ) - B| ≤ 160 * eps * P) (hAB : A - B = r * (2 * P / n)) (hr : |r| ≤ 2) :
    |((rnd (a - b) : ℚ) : ℝ) - r * (2 * P / n)| ≤ P * (321 * eps) := by
  have he := eps_pos
  have he1 := eps_small
  have hP := P_pos
  have h1 : |((a - b : ℚ) : ℝ) - r * (2 * P / n)| ≤ P * (320 * eps) := by
    rw [← hAB, Rat.cast_sub, sub_sub_sub_comm]
    refine (abs_sub _ _).trans ?_
    linarith
  have h2 : |r * (2 * P / n)| ≤ 4 * P := by
    rw [abs_mul, abs_of_pos (show 0 < 2 * P / n by positivity)]
    have : 2 * P / n ≤ 2 * P := div_le_self (by positivity) hn
    calc |r| * (2 * P / n) ≤ 2 * (2 * P) := by gcongr
      _ = 4 * P := by ring
  refine (rnd_near h1 h2).trans ?_
  have : 0 < P * eps := by positivity
  have h3 : P * (320 * eps) * (eps / 8) ≤ P * eps * 0.01 := by nlinarith
  linarith

/-- the value `SinglePoint` rounds -/
theorem factor_near {a b D : ℚ} {A B n r : ℝ} (e : ℤ) (hn : 1 ≤ n) (he0 : 0 < e) (hne : n * e ≤ 2 ^ 34) (he2 : e ≤ 2147483647)
    (ha : |(a : ℝ) - A| ≤ 160 * eps * P) (hb : |(b : ℝ) - B| ≤ 160 * eps * P) (hAB : A - B = r * (2 * P / n)) (hr : |r| ≤ 2)
    (hD : |(D : ℝ) - 2 * P / n| ≤ P * (321 * eps)) :
    |((rnd (rnd (rnd (a - b) / D) * rnd e) : ℚ) : ℝ) - r * e| ≤ 0.0075 := by
  have hp := eps_pos
  have hp1 := eps_small
  have hP := P_pos
  have hn0 : 0 < n := by linarith
  have hE : (1 : ℝ) ≤ e := by exact_mod_cast (show (1 : ℤ) ≤ e by omega)
  have hnn : n ≤ 2 ^ 34 := by
    calc n = n * 1 := by ring
      _ ≤ n * e := by gcongr
      _ ≤ _ := hne
  have hneps : n * eps ≤ 1 / 65536 := by
    calc n * eps ≤ 2 ^ 34 * eps := by gcongr
      _ = 1 / 65536 := by unfold eps; norm_num
  have hneeps : n * e * eps ≤ 1 / 65536 := by
    calc n * e * eps ≤ 2 ^ 34 * eps := by gcongr
      _ = 1 / 65536 := by unfold eps; norm_num
  have re : rnd ((e : ℤ) : ℚ) = e := rnd_int _ (by
    rw [abs_of_pos he0, show (2 : ℤ) ^ 53 = 9007199254740992 by norm_num]; omega)
  rw [re]
  have hu := delta_near hn ha hb hAB hr
  generalize rnd (a - b) = u at hu
  have hDlo : 1.98 * P / n ≤ (D : ℝ) := by
    have h1 := (abs_le.mp hD).1
    have h2 : P * (321 * eps) ≤ 0.02 * P / n := by
      rw [le_div_iff₀ hn0]
      have : P * (321 * (n * eps)) ≤ P * (321 * (1 / 65536)) := by gcongr
      nlinarith
    have h3 : 2 * P / n = 1.98 * P / n + 0.02 * P / n := by ring
    linarith
  have hD0 : 0 < (D : ℝ) := lt_of_lt_of_le (by positivity) hDlo
  have hf1 : |((u / D : ℚ) : ℝ) - r| ≤ 486.5 * (n * eps) := by
    rw [Rat.cast_div]
    have e1 : (u : ℝ) / D - r = (u - r * D) / D := by field_simp
    rw [e1, abs_div, abs_of_pos hD0, div_le_iff₀ hD0]
    have e2 : (u : ℝ) - r * D = ((u : ℝ) - r * (2 * P / n)) - r * ((D : ℝ) - 2 * P / n) := by ring
    rw [e2]
    refine (abs_sub _ _).trans ?_
    rw [abs_mul]
    have h1 : |r| * |(D : ℝ) - 2 * P / n| ≤ 2 * (P * (321 * eps)) := mul_le_mul hr hD (abs_nonneg _) (by norm_num)
    have h2 : 486.5 * (n * eps) * (1.98 * P / n) ≤ 486.5 * (n * eps) * D := by gcongr
    have h3 : 486.5 * (n * eps) * (1.98 * P / n) = 963.27 * (P * eps) := by field_simp; ring
    have : 0 < P * eps := by positivity
    linarith
  have hne0 : 0 < n * eps := by positivity
  have heps : eps ≤ n * eps := by nlinarith
  have hf : |((rnd (u / D) : ℚ) : ℝ) - r| ≤ 487 * (n * eps) := by
    refine (rnd_near hf1 hr).trans ?_
    have : 486.5 * (n * eps) * (eps / 8) ≤ 0.1 * eps := by nlinarith
    linarith
  generalize rnd (u / D) = f at hf
  have hg1 : |((f * e : ℚ) : ℝ) - r * e| ≤ 487 * (n * e * eps) := by
    rw [Rat.cast_mul, Rat.cast_intCast, ← sub_mul, abs_mul, abs_of_pos (show (0 : ℝ) < e by linarith)]
    calc |(f : ℝ) - r| * e ≤ 487 * (n * eps) * e := by gcongr
      _ = _ := by ring
  have hB : |r * e| ≤ 2 * e := by
    rw [abs_mul, abs_of_pos (show (0 : ℝ) < e by linarith)]
    gcongr
  refine (rnd_near hg1 hB).trans ?_
  have h1 : (e : ℝ) * eps ≤ n * e * eps := by
    have : 0 < (e : ℝ) * eps := by positivity
    nlinarith
  have h2 : 487 * (n * e * eps) * (eps / 8) ≤ 0.1 * eps := by nlinarith
  have h3 : eps ≤ e * eps := by nlinarith
  nlinarith

/-! ## the value that is rounded to a grid coordinate -/

theorem world_L {lat : ℝ} (h : |lat| ≤ 85.5) : worldY lat = (1 - L (lat * (Real.pi / 180)) / Real.pi) / 2 := by
  obtain ⟨a, b⟩ := abs_le.mp h
  rw [worldY_eq (by linarith) (by linarith), rowf_L (by linarith) (by linarith)]

theorem clamp_world (D : ℝ) : max (-P) (min (P * D) P) = P * (1 - 2 * between 0 1 ((1 - D) / 2)) := by
  have hP := P_pos
  unfold between
  rcases le_total D 1 with h1 | h1
  · rw [min_eq_left (by nlinarith : P * D ≤ P)]
    rcases le_total (-1) D with h2 | h2
    · rw [max_eq_right (by nlinarith), min_eq_right (by linarith), max_eq_right (by linarith)]
      ring
    · rw [max_eq_left (by nlinarith), min_eq_left (by linarith), max_eq_right (by linarith)]
      ring
  · rw [min_eq_right (by nlinarith : P ≤ P * D), max_eq_right (by linarith), min_eq_right (by linarith), max_eq_left (by linarith)]
    ring

/-- The two values `SinglePoint` rounds (mvt/write_geometry.go:279-284). -/
def preRound (M : MathLib) (c : Cursor) (p : ℚ × ℚ) : ℚ × ℚ :=
  (rnd (rnd (rnd ((convertPoint M p).1 - c.Bounds.W) / c.DeltaX) * rnd c.Extent),
   rnd (rnd (rnd (c.Bounds.N - (convertPoint M p).2) / c.DeltaY) * rnd c.Extent))

theorem se_X (t : TileID) : (((se t).X : ℤ) : ℝ) = t.X + 1 := by unfold se; push_cast; rfl
theorem se_Y (t : TileID) : (((se t).Y : ℤ) : ℝ) = t.Y + 1 := by unfold se; push_cast; rfl

theorem pow_Z_le {t : TileID} {e : ℤ} (he0 : 0 < e) (hne : (2 : ℤ) ^ t.Z * e ≤ 2 ^ 34) :
    t.Z ≤ 34 ∧ (1 : ℝ) ≤ 2 ^ t.Z ∧ (2 : ℝ) ^ t.Z * e ≤ 2 ^ 34 := by
  refine ⟨?_, one_le_pow₀ (by norm_num), by exact_mod_cast hne⟩
  by_contra h
  have h1 : (2 : ℤ) ^ 35 ≤ 2 ^ t.Z := pow_le_pow_right₀ (by norm_num) (by omega)
  have h2 : (2 : ℤ) ^ t.Z * 1 ≤ 2 ^ t.Z * e := mul_le_mul_of_nonneg_left (by omega) (by positivity)
  norm_num at h1 hne
  omega

theorem pre_near {M : MathExp} (hM : AccurateExp M) (t : TileID) (hg : t.InGrid) (e : ℤ) (he0 : 0 < e)
    (hne : (2 : ℤ) ^ t.Z * e ≤ 2 ^ 34) (he2 : e ≤ 2147483647) (p : ℚ × ℚ) (h1 : |(p.1 : ℝ)| ≤ 600) (h2 : |(p.2 : ℝ)| ≤ 85.5)
    (hx : |(gridPos t e p).1| ≤ 2 * e) (hy : |(gridPos t e p).2| ≤ 2 * e) :
    |((preRound M.toMathLib (newCursorExtent M.toMathLib t e) p).1 : ℝ) - (gridPos t e p).1| ≤ 0.0075 ∧
    |((preRound M.toMathLib (newCursorExtent M.toMathLib t e) p).2 : ℝ) - (gridPos t e p).2| ≤ 0.0075 := by
  have hp := eps_pos
  have hP := P_pos
  obtain ⟨hz, hn, hne'⟩ := pow_Z_le he0 hne
  have hn0 : (0 : ℝ) < 2 ^ t.Z := by positivity
  have hE : (0 : ℝ) < e := by exact_mod_cast he0
  obtain ⟨s1, s2⟩ := small_of_grid hg (by omega : t.Z ≤ 50)
  have hb := bounds_eq M.toMathLib hg (by omega : t.Z ≤ 50)
  have hZ : (se t).Z = t.Z := rfl
  have one : |(1 : ℝ)| ≤ 2 := by norm_num
  unfold gridPos at *
  simp only at *
  rw [abs_mul, abs_of_pos hE] at hx hy
  have hx' := le_of_mul_le_mul_right hx hE
  have hy' := le_of_mul_le_mul_right hy hE
  constructor
  · have w := edge_west M.toMathLib s1 (ul M.toMathLib (se t)).2
    have ea := edge_west M.toMathLib s2 (ul M.toMathLib t).2
    rw [se_X, hZ] at ea
    have d := delta_near (r := 1) hn ea w (by field_simp; ring) one
    rw [one_mul] at d
    have a := east_near (q := p.1) (lng := p.1) (by rw [sub_self, abs_zero]; positivity) h1
    have a' : |((rnd (rnd (pole / 180) * p.1) : ℚ) : ℝ) - P * ((p.1 : ℝ) / 180)| ≤ 160 * eps * P := by
      refine a.trans ?_
      have : 0 < P * eps := by positivity
      linarith
    have key := factor_near (D := rnd ((convertPoint M.toMathLib ((ul M.toMathLib (se t)).1, (ul M.toMathLib t).2)).1 -
        (convertPoint M.toMathLib ((ul M.toMathLib t).1, (ul M.toMathLib (se t)).2)).1)) e hn he0 hne' he2 a' w
        (r := worldX p.1 * 2 ^ t.Z - t.X) (by unfold worldX; field_simp; ring) hx' d
    unfold preRound newCursorExtent convertCursor
    rw [hb]
    exact key
  · have no := edge_north hM s1 (ul M.toMathLib (se t)).1
    have so := edge_north hM s2 (ul M.toMathLib t).1
    rw [se_Y, hZ] at so
    have d := delta_near (r := 1) hn no so (by field_simp; ring) one
    rw [one_mul] at d
    have a := convert_near hM p h2
    rw [clamp_world, ← world_L h2] at a
    have a' : |((convertPoint M.toMathLib p).2 : ℝ) - P * (1 - 2 * between 0 1 (worldY p.2))| ≤ 160 * eps * P := by
      refine a.trans ?_
      have : 0 < P * eps := by positivity
      linarith
    have key := factor_near (D := rnd ((convertPoint M.toMathLib ((ul M.toMathLib (se t)).1, (ul M.toMathLib t).2)).2 -
        (convertPoint M.toMathLib ((ul M.toMathLib t).1, (ul M.toMathLib (se t)).2)).2)) e hn he0 hne' he2 no a'
        (r := between 0 1 (worldY p.2) * 2 ^ t.Z - t.Y) (by field_simp; ring) hy' d
    unfold preRound newCursorExtent convertCursor
    rw [hb]
    exact key

/-! ## reading -/

theorem arctan_exp_lip (a b : ℝ) : |Real.arctan (Real.exp a) - Real.arctan (Real.exp b)| ≤ 1 / 2 * |a - b| := by
  have h := Convex.norm_image_sub_le_of_norm_hasDerivWithin_le (f := fun x => Real.arctan (Real.exp x))
    (f' := fun x => 1 / (1 + Real.exp x ^ 2) * Real.exp x) (C := 1 / 2)
    (s := Set.univ) (x := b) (y := a) (fun x _ => ((Real.hasDerivAt_exp x).arctan).hasDerivWithinAt)
    (fun x _ => by
      have h1 := Real.exp_pos x
      have h3 : 0 < 1 + Real.exp x ^ 2 := by positivity
      rw [Real.norm_eq_abs, abs_of_pos (by positivity), one_div_mul_eq_div, div_le_iff₀ h3]
      nlinarith [sq_nonneg (Real.exp x - 1)])
    convex_univ trivial trivial
  simpa [Real.norm_eq_abs] using h

theorem k360_near : |((rnd (360 / piC) : ℚ) : ℝ) - 360 / Real.pi| ≤ 16 * eps := by
  have he := eps_pos
  have he1 := eps_small
  have hpi := Real.pi_gt_d2
  have hp := abs_le.mp piC_near
  have hp0 : 0 < Real.pi := Real.pi_pos
  have hc : (3 : ℝ) ≤ piC := by linarith
  have h1 : |((360 / piC : ℚ) : ℝ) - 360 / Real.pi| ≤ eps := by
    rw [Rat.cast_div, Rat.cast_ofNat]
    have e : (360 : ℝ) / piC - 360 / Real.pi = 360 * (Real.pi - piC) / (piC * Real.pi) := by field_simp
    have hprod : 9 ≤ (piC : ℝ) * Real.pi := by nlinarith
    rw [e, abs_div, abs_mul, abs_of_pos (by linarith : 0 < (piC : ℝ) * Real.pi), abs_sub_comm,
      div_le_iff₀ (by linarith), abs_of_pos (show (0 : ℝ) < 360 by norm_num)]
    have := piC_near
    nlinarith
  refine (rnd_near h1 (B := 114.7) ?_).trans (by nlinarith)
  rw [abs_of_pos (by positivity), div_le_iff₀ hp0]
  linarith

/-- the latitude of a row given as degrees from the north edge, `v` of 360 -/
theorem lat_back {M : MathExp} (hM : AccurateExp M) {vq : ℚ} {v : ℝ} (h : |(vq : ℝ) - v| ≤ 45 * eps) (h0 : 0 ≤ v) (h1 : v ≤ 360) :
    |((rnd (rnd (rnd (360 / piC) * M.atan (M.exp (rnd (rnd (rnd (180 - vq) * rnd piC) / 180)))) - 90) : ℚ) : ℝ) -
      (360 / Real.pi * Real.arctan (Real.exp ((180 - v) * Real.pi / 180)) - 90)| ≤ 500 * eps := by
  have he := eps_pos
  have he1 := eps_small
  have hpi := Real.pi_pos
  have hpi2 := Real.pi_lt_d4
  have hpi1 := Real.pi_gt_d4
  have a : |((rnd (180 - vq) : ℚ) : ℝ) - (180 - v)| ≤ 67.6 * eps :=
    (rnd_near (q := 180 - vq) (x := 180 - v) (d := 45 * eps) (B := 180)
      (by rw [Rat.cast_sub, Rat.cast_ofNat, sub_sub_sub_cancel_left, abs_sub_comm]; exact h)
      (by rw [abs_le]; constructor <;> linarith)).trans (by nlinarith)
  generalize rnd (180 - vq) = yq at a
  have hyB : |180 - v| ≤ 180 := by rw [abs_le]; constructor <;> linarith
  generalize 180 - v = y at a hyB
  have hf := fpi_near
  generalize rnd piC = f at hf
  have hfB : |(f : ℝ)| ≤ 3.15 := by
    have : (f : ℝ) = ((f : ℝ) - Real.pi) + Real.pi := by ring
    rw [this]
    refine (abs_add_le _ _).trans ?_
    rw [abs_of_pos hpi]
    linarith
  have b1 : |((yq * f : ℚ) : ℝ) - y * Real.pi| ≤ 303 * eps := by
    rw [Rat.cast_mul]
    have e : (yq : ℝ) * f - y * Real.pi = ((yq : ℝ) - y) * f + y * ((f : ℝ) - Real.pi) := by ring
    rw [e]
    refine (abs_add_le _ _).trans ?_
    rw [abs_mul, abs_mul]
    have p1 : |(yq : ℝ) - y| * |(f : ℝ)| ≤ 67.6 * eps * 3.15 := mul_le_mul a hfB (abs_nonneg _) (by linarith)
    have p2 : |y| * |(f : ℝ) - Real.pi| ≤ 180 * (eps / 2) := mul_le_mul hyB hf (abs_nonneg _) (by norm_num)
    linarith
  have hB : |y * Real.pi| ≤ 566 := by
    rw [abs_mul, abs_of_pos hpi]
    calc |y| * Real.pi ≤ 180 * 3.1416 := by gcongr
      _ ≤ 566 := by norm_num
  have b : |((rnd (yq * f) : ℚ) : ℝ) - y * Real.pi| ≤ 374 * eps := (rnd_near b1 hB).trans (by nlinarith)
  generalize rnd (yq * f) = bq at b
  have c1 : |((bq / 180 : ℚ) : ℝ) - y * Real.pi / 180| ≤ 374 / 180 * eps := by
    rw [Rat.cast_div, Rat.cast_ofNat, ← sub_div, abs_div, abs_of_pos (show (0 : ℝ) < 180 by norm_num)]
    linarith
  have hB2 : |y * Real.pi / 180| ≤ 3.15 := by
    rw [abs_div, abs_of_pos (show (0 : ℝ) < 180 by norm_num), div_le_iff₀ (by norm_num)]
    linarith
  have c : |((rnd (bq / 180) : ℚ) : ℝ) - y * Real.pi / 180| ≤ 2.48 * eps := (rnd_near c1 hB2).trans (by nlinarith)
  generalize rnd (bq / 180) = w at c
  generalize y * Real.pi / 180 = W at c hB2
  have hw4 : |(w : ℝ)| ≤ 4 := by
    have : (w : ℝ) = ((w : ℝ) - W) + W := by ring
    rw [this]
    exact (abs_add_le _ _).trans (by linarith)
  obtain ⟨hE0, hlr⟩ := log_rel (Real.exp_pos _) (hM.exp w hw4)
  rw [Real.log_exp] at hlr
  generalize M.exp w = E at hE0 hlr
  have hat := hM.lib.atan E
  have habs : ∀ x : ℝ, |Real.arctan x| ≤ 1.571 := by
    intro x
    have h1 := Real.arctan_lt_pi_div_two x
    have h2 := Real.neg_pi_div_two_lt_arctan x
    rw [abs_le]; constructor <;> linarith
  have hrad : |(M.atan E : ℝ) - Real.arctan (Real.exp W)| ≤ 3.82 * eps := by
    have e : (M.atan E : ℝ) - Real.arctan (Real.exp W) =
      ((M.atan E : ℝ) - Real.arctan E) + (Real.arctan (Real.exp (Real.log E)) - Real.arctan (Real.exp W)) := by
      rw [Real.exp_log hE0]; ring
    have l1 := arctan_exp_lip (Real.log E) W
    have l2 : |Real.log (E : ℝ) - W| ≤ 4.48 * eps := by
      have e2 : Real.log (E : ℝ) - W = (Real.log (E : ℝ) - w) + ((w : ℝ) - W) := by ring
      rw [e2]
      exact (abs_add_le _ _).trans (by linarith)
    have l3 : |Real.arctan (E : ℝ)| * eps ≤ 1.571 * eps := by gcongr; exact habs _
    rw [e]
    refine (abs_add_le _ _).trans ?_
    linarith
  have hgB := habs (Real.exp W)
  have hg0 : 0 < Real.arctan (Real.exp W) := by
    have := Real.arctan_strictMono (Real.exp_pos W)
    rwa [Real.arctan_zero] at this
  have hk := k360_near
  have hkB : 360 / Real.pi ≤ 114.6 := by rw [div_le_iff₀ hpi]; linarith
  have hk0 : 0 < 360 / Real.pi := by positivity
  have hG : 360 / Real.pi * Real.arctan (Real.exp W) ≤ 180 := by
    have := Real.arctan_lt_pi_div_two (Real.exp W)
    calc 360 / Real.pi * Real.arctan (Real.exp W) ≤ 360 / Real.pi * (Real.pi / 2) := by gcongr
      _ = 180 := by field_simp; norm_num
  generalize M.atan E = at' at *
  generalize Real.arctan (Real.exp W) = g at *
  generalize rnd (360 / piC) = kq at hk
  generalize 360 / Real.pi = k at *
  have hprod : |((kq * at' : ℚ) : ℝ) - k * g| ≤ 464 * eps := by
    rw [Rat.cast_mul]
    have e : (kq : ℝ) * at' - k * g = ((kq : ℝ) - k) * at' + k * ((at' : ℝ) - g) := by ring
    have ha2 : |(at' : ℝ)| ≤ 1.58 := by
      have : (at' : ℝ) = ((at' : ℝ) - g) + g := by ring
      rw [this]
      exact (abs_add_le _ _).trans (by linarith)
    rw [e]
    refine (abs_add_le _ _).trans ?_
    rw [abs_mul, abs_mul, abs_of_pos hk0]
    have p1 : |(kq : ℝ) - k| * |(at' : ℝ)| ≤ 16 * eps * 1.58 := mul_le_mul hk ha2 (abs_nonneg _) (by linarith)
    have p2 : k * |(at' : ℝ) - g| ≤ 114.6 * (3.82 * eps) := mul_le_mul hkB hrad (abs_nonneg _) (by norm_num)
    linarith
  have hG0 : 0 < k * g := by positivity
  have d : |((rnd (kq * at') : ℚ) : ℝ) - k * g| ≤ 487 * eps :=
    (rnd_near hprod (B := 180) (by rw [abs_of_pos hG0]; exact hG)).trans (by nlinarith)
  generalize rnd (kq * at') = dq at d
  exact (rnd_near (q := dq - 90) (x := k * g - 90) (d := 487 * eps) (B := 90)
    (by rw [Rat.cast_sub, Rat.cast_ofNat, sub_sub_sub_cancel_right]; exact d)
    (by rw [abs_le]; constructor <;> linarith)).trans (by nlinarith)

/-- the exact quotient of a row or column of the map, in degrees -/
theorem quot_near (s m : ℤ) (B : ℝ) (hB : |(s : ℝ) * 360 / m| ≤ B) (hs : |s| ≤ 2 ^ 40) :
    |((rnd (rnd (rnd s * 360) / m) : ℚ) : ℝ) - (s : ℝ) * 360 / m| ≤ B * (eps / 8) := by
  have e1 : rnd ((s : ℤ) : ℚ) = s := rnd_int _ (hs.trans (by norm_num))
  have e2 : rnd ((s : ℚ) * 360) = s * 360 := by
    have := rnd_int (s * 360) (by
      rw [abs_mul]
      have : |(360 : ℤ)| = 360 := by norm_num
      rw [this]
      norm_num at hs ⊢
      omega)
    push_cast at this
    exact this
  rw [e1, e2]
  have := rnd_near (q := (s : ℚ) * 360 / m) (x := (s : ℝ) * 360 / m) (d := 0) (B := B) (by push_cast; simp) hB
  linarith

theorem quot_swap (x y : ℤ) (e : ℤ) : rnd (((x : ℤ) : ℚ) + (((e * y : ℤ)) : ℚ)) = rnd (((x + e * y : ℤ)) : ℚ) := by
  push_cast; rfl

theorem toLonLat_near {M : MathExp} (hM : AccurateExp M) (t : TileID) (hg : t.InGrid) (e : ℤ) (he0 : 0 < e)
    (hne : (2 : ℤ) ^ t.Z * e ≤ 2 ^ 34) (x y : ℤ) (hx : -e ≤ x ∧ x ≤ 2 * e)
    (hy : 0 ≤ y + e * t.Y ∧ y + e * t.Y ≤ e * 2 ^ t.Z) :
    |((toLonLat M t e (x, y)).1 : ℝ) - (MvtProj.toLonLat t e (x, y)).1| ≤ 160 * eps ∧ |(MvtProj.toLonLat t e (x, y)).1| ≤ 540 ∧
    |((toLonLat M t e (x, y)).2 : ℝ) - (MvtProj.toLonLat t e (x, y)).2| ≤ 500 * eps := by
  have hp := eps_pos
  have hp1 := eps_small
  obtain ⟨x0, x1, y0, y1⟩ := hg
  have hpow : (1 : ℤ) ≤ 2 ^ t.Z := one_le_pow₀ (by norm_num)
  have heN : e ≤ 2 ^ t.Z * e := by nlinarith
  have hX : e * t.X ≤ 2 ^ t.Z * e := by nlinarith
  have hX' : e * t.X + e ≤ 2 ^ t.Z * e := by nlinarith
  have hX0 : 0 ≤ e * t.X := by positivity
  have hY : e * t.Y ≤ 2 ^ t.Z * e := by nlinarith
  have hY0 : 0 ≤ e * t.Y := by positivity
  have hcomm : e * 2 ^ t.Z = 2 ^ t.Z * e := mul_comm _ _
  have hXs : t.X < 2 ^ t.Z := x1
  have hNs : (2 : ℤ) ^ t.Z ≤ 2 ^ t.Z * e := by nlinarith
  have b53 : (2 : ℤ) ^ 53 = 9007199254740992 := by norm_num
  norm_num at hne
  have r1 : rnd ((e : ℤ) : ℚ) = e := rnd_int _ (by rw [abs_of_pos he0, b53]; omega)
  have r2 : rnd ((t.X : ℤ) : ℚ) = t.X := rnd_int _ (by rw [abs_of_nonneg x0, b53]; omega)
  have r3 : rnd ((t.Y : ℤ) : ℚ) = t.Y := rnd_int _ (by rw [abs_of_nonneg y0, b53]; omega)
  have r4 : rnd ((e : ℚ) * t.X) = ((e * t.X : ℤ) : ℚ) := by
    have := rnd_int (e * t.X) (by rw [abs_of_nonneg hX0, b53]; omega)
    push_cast at this ⊢
    exact this
  have r5 : rnd ((e : ℚ) * t.Y) = ((e * t.Y : ℤ) : ℚ) := by
    have := rnd_int (e * t.Y) (by rw [abs_of_nonneg hY0, b53]; omega)
    push_cast at this ⊢
    exact this
  have r6 : rnd ((e : ℚ) * 2 ^ t.Z) = ((e * 2 ^ t.Z : ℤ) : ℚ) := by
    have := rnd_int (e * 2 ^ t.Z) (by rw [hcomm, abs_of_nonneg (by omega), b53]; omega)
    push_cast at this ⊢
    exact this
  have hm0 : (0 : ℝ) < ((e * 2 ^ t.Z : ℤ) : ℝ) := by
    have : 0 < e * 2 ^ t.Z := by omega
    exact_mod_cast this
  have b40 : (2 : ℤ) ^ 40 = 1099511627776 := by norm_num
  -- columns
  have qx : |((x + e * t.X : ℤ) : ℝ) * 360 / ((e * 2 ^ t.Z : ℤ) : ℝ)| ≤ 720 := by
    rw [abs_div, abs_of_pos hm0, div_le_iff₀ hm0, abs_le]
    have i1 : -(720 * (e * 2 ^ t.Z)) ≤ (x + e * t.X) * 360 := by omega
    have i2 : (x + e * t.X) * 360 ≤ 720 * (e * 2 ^ t.Z) := by omega
    constructor
    · exact_mod_cast i1
    · exact_mod_cast i2
  have qxs : -360 ≤ ((x + e * t.X : ℤ) : ℝ) * 360 / ((e * 2 ^ t.Z : ℤ) : ℝ) := by
    rw [le_div_iff₀ hm0]
    have i1 : -360 * (e * 2 ^ t.Z) ≤ (x + e * t.X) * 360 := by omega
    exact_mod_cast i1
  have nx := quot_near (x + e * t.X) (e * 2 ^ t.Z) 720 qx (by rw [b40, abs_le]; constructor <;> omega)
  have qy0 : 0 ≤ ((y + e * t.Y : ℤ) : ℝ) * 360 / ((e * 2 ^ t.Z : ℤ) : ℝ) := by
    have : (0 : ℝ) ≤ ((y + e * t.Y : ℤ) : ℝ) := by exact_mod_cast hy.1
    positivity
  have qy1 : ((y + e * t.Y : ℤ) : ℝ) * 360 / ((e * 2 ^ t.Z : ℤ) : ℝ) ≤ 360 := by
    rw [div_le_iff₀ hm0]
    have i2 : (y + e * t.Y) * 360 ≤ 360 * (e * 2 ^ t.Z) := by omega
    exact_mod_cast i2
  have ny := quot_near (y + e * t.Y) (e * 2 ^ t.Z) 360 (by rw [abs_of_nonneg qy0]; exact qy1)
    (by rw [b40, abs_le]; constructor <;> omega)
  have ex : ((x : ℝ) + e * t.X) * 360 / (e * 2 ^ t.Z) = ((x + e * t.X : ℤ) : ℝ) * 360 / ((e * 2 ^ t.Z : ℤ) : ℝ) := by push_cast; ring
  have ey : ((y : ℝ) + e * t.Y) * 360 / (e * 2 ^ t.Z) = ((y + e * t.Y : ℤ) : ℝ) * 360 / ((e * 2 ^ t.Z : ℤ) : ℝ) := by push_cast; ring
  unfold toLonLat projectPt MvtProj.toLonLat MvtProj.projectPt
  simp only
  rw [r1, r2, r3, r4, r5, r6, quot_swap, quot_swap, ex, ey]
  generalize rnd (rnd (rnd ((x + e * t.X : ℤ) : ℚ) * 360) / ((e * 2 ^ t.Z : ℤ) : ℚ)) = a at nx
  generalize ((x + e * t.X : ℤ) : ℝ) * 360 / ((e * 2 ^ t.Z : ℤ) : ℝ) = A at nx qx qxs
  obtain ⟨qx1, qx2⟩ := abs_le.mp qx
  refine ⟨?_, by rw [abs_le]; constructor <;> linarith, lat_back hM (ny.trans (by linarith)) qy0 qy1⟩
  exact (rnd_near (q := a - 180) (x := A - 180) (d := 90 * eps) (B := 540)
    (by rw [Rat.cast_sub, Rat.cast_ofNat, sub_sub_sub_cancel_right]; linarith)
    (by rw [abs_le]; constructor <;> linarith)).trans (by nlinarith)

end Verif.MvtProj.Float
