import Verif.Spec.TileFloat
import Verif.Proof.F64
import Verif.Props.TileGeo
import Mathlib.Analysis.Real.Pi.Bounds
import Mathlib.Analysis.Complex.ExponentialBounds
import Mathlib.Analysis.SpecialFunctions.Trigonometric.Bounds

/-! # Rounding errors of the lon/lat functions -/
namespace Verif.Tid.Float
open Verif.Go Verif.F64

theorem eps_pos : 0 < eps := by unfold eps; positivity

theorem rndR (q : ℚ) : |((rnd q : ℚ) : ℝ) - q| ≤ |(q : ℝ)| * (eps / 8) := by
  have h := rnd_err q
  have h' : ((|rnd q - q| : ℚ) : ℝ) ≤ ((|q| / 2 ^ 53 : ℚ) : ℝ) := by exact_mod_cast h
  push_cast at h'
  unfold eps
  calc _ ≤ _ := h'
    _ = _ := by ring

theorem rnd_near {q : ℚ} {x d B : ℝ} (h : |(q : ℝ) - x| ≤ d) (hB : |x| ≤ B) :
    |((rnd q : ℚ) : ℝ) - x| ≤ d + (B + d) * (eps / 8) := by
  have h1 := rndR q
  have h2 : |(q : ℝ)| ≤ B + d := by
    have := abs_add_le ((q : ℝ) - x) x
    rw [sub_add_cancel] at this
    linarith
  have h3 := eps_pos
  have h4 : |((rnd q : ℚ) : ℝ) - x| ≤ |((rnd q : ℚ) : ℝ) - q| + |(q : ℝ) - x| := by
    have := abs_add_le (((rnd q : ℚ) : ℝ) - q) ((q : ℝ) - x)
    rwa [sub_add_sub_cancel] at this
  nlinarith

theorem piC_near : |(piC : ℝ) - Real.pi| ≤ eps / 1000 := by
  have h1 := Real.pi_gt_d20
  have h2 := Real.pi_lt_d20
  unfold piC eps
  push_cast
  rw [abs_le]
  constructor
  · norm_num at *; linarith
  · norm_num at *; linarith

theorem fpi_near : |((rnd piC : ℚ) : ℝ) - Real.pi| ≤ eps / 2 := by
  have := rnd_near piC_near (B := 3.15) (by rw [abs_of_pos Real.pi_pos]; linarith [Real.pi_lt_d2])
  have h := eps_pos
  have h1 : eps ≤ 1 := by unfold eps; norm_num
  nlinarith

/-! ## columns -/

theorem col_near (lng : ℚ) (h : |(lng : ℝ)| ≤ 181) (z : ℤ) :
    |((rnd (rnd (rnd (lng + 180) / 360) * 2 ^ z) : ℚ) : ℝ) - ((lng : ℝ) + 180) / 360 * 2 ^ z| ≤ 2 ^ z * eps := by
  have he := eps_pos
  have he1 : eps ≤ 1 / 1000 := by unfold eps; norm_num
  obtain ⟨h1, h2⟩ := abs_le.mp h
  have hn : (0 : ℝ) < 2 ^ z := by positivity
  have a := rnd_near (q := lng + 180) (x := (lng : ℝ) + 180) (d := 0) (B := 361) (by push_cast; simp)
    (by rw [abs_le]; constructor <;> linarith)
  have b := rnd_near (q := rnd (lng + 180) / 360) (x := ((lng : ℝ) + 180) / 360) (d := (361 * (eps / 8)) / 360) (B := 361 / 360)
    (by
      push_cast
      rw [← sub_div, abs_div, abs_of_pos (show (0 : ℝ) < 360 by norm_num)]
      gcongr
      linarith)
    (by rw [abs_le]; constructor <;> linarith)
  have c := rnd_near (q := rnd (rnd (lng + 180) / 360) * 2 ^ z) (x := ((lng : ℝ) + 180) / 360 * 2 ^ z)
    (d := (3 * (eps / 8)) * 2 ^ z) (B := 361 / 360 * 2 ^ z)
    (by
      push_cast
      rw [← sub_mul, abs_mul, abs_of_pos hn]
      gcongr
      nlinarith)
    (by
      rw [abs_mul, abs_of_pos hn]
      gcongr
      rw [abs_le]; constructor <;> linarith)
  refine c.trans ?_
  have : (3 * (eps / 8)) * 2 ^ z + (361 / 360 * 2 ^ z + (3 * (eps / 8)) * (2 : ℝ) ^ z) * (eps / 8) =
    2 ^ z * ((3 * (eps / 8)) + (361 / 360 + (3 * (eps / 8))) * (eps / 8)) := by ring
  rw [this]
  gcongr
  nlinarith

/-! ## rows -/

theorem cos_ge {r : ℝ} (h : |r| ≤ 1.4923) : 1 / 13 ≤ Real.cos r := by
  rw [← Real.cos_abs]
  have hp := Real.pi_gt_d4
  have hp2 := Real.pi_lt_d4
  have h0 := abs_nonneg r
  have h1 : Real.cos 1.4923 ≤ Real.cos |r| :=
    Real.cos_le_cos_of_nonneg_of_le_pi h0 (by linarith) h
  refine le_trans ?_ h1
  rw [← Real.sin_pi_div_two_sub]
  have hx0 : 0.07845 ≤ Real.pi / 2 - 1.4923 := by linarith
  have hx1 : Real.pi / 2 - 1.4923 ≤ 0.0786 := by linarith
  have h2 : Real.sin 0.07845 ≤ Real.sin (Real.pi / 2 - 1.4923) :=
    Real.sin_le_sin_of_le_of_le_pi_div_two (by linarith) (by linarith) hx0
  have h3 := Real.sin_gt_sub_cube (x := 0.07845) (by norm_num)
  norm_num at h3 ⊢
  norm_num at h2
  linarith

theorem tan_le {r : ℝ} (h : |r| ≤ 1.4923) : |Real.tan r| ≤ 13 := by
  have hc := cos_ge h
  rw [Real.tan_eq_sin_div_cos, abs_div, abs_of_pos (by linarith : 0 < Real.cos r), div_le_iff₀ (by linarith)]
  have := Real.abs_sin_le_one r
  linarith

/-- the inverse Gudermannian -/
noncomputable def L (φ : ℝ) : ℝ := Real.log (Real.tan φ + 1 / Real.cos φ)

theorem one_add_sin_pos {φ : ℝ} (h : 0 < Real.cos φ) : 0 < 1 + Real.sin φ := by
  have h1 := Real.sin_sq_add_cos_sq φ
  have h2 := Real.neg_one_le_sin φ
  rcases lt_or_eq_of_le h2 with h3 | h3
  · linarith
  · rw [← h3] at h1; nlinarith

theorem arg_eq {φ : ℝ} (h : 0 < Real.cos φ) : Real.tan φ + 1 / Real.cos φ = (1 + Real.sin φ) / Real.cos φ := by
  rw [Real.tan_eq_sin_div_cos]; field_simp; ring

theorem L_deriv {φ : ℝ} (h : 0 < Real.cos φ) : HasDerivAt L (1 / Real.cos φ) φ := by
  have hp : 0 < Real.tan φ + 1 / Real.cos φ := by
    rw [arg_eq h]; exact div_pos (one_add_sin_pos h) h
  have h1 := Real.hasDerivAt_tan h.ne'
  have h2 := (Real.hasDerivAt_cos φ).inv h.ne'
  have h3 := (h1.add h2).log (by
    have : (Real.tan + (Real.cos)⁻¹) φ = Real.tan φ + 1 / Real.cos φ := by simp
    rw [this]; exact hp.ne')
  have he : L = fun y => Real.log ((Real.tan + (Real.cos)⁻¹) y) := by
    funext y; simp [L]
  rw [he]
  convert h3 using 1
  have : (Real.tan + (Real.cos)⁻¹) φ = (1 + Real.sin φ) / Real.cos φ := by
    rw [← arg_eq h]; simp
  rw [this]
  have := one_add_sin_pos h
  field_simp

theorem L_lip {a b : ℝ} (ha : |a| ≤ 1.4923) (hb : |b| ≤ 1.4923) : |L a - L b| ≤ 13 * |a - b| := by
  have hs : ∀ x ∈ Set.Icc (-1.4923 : ℝ) 1.4923, 1 / 13 ≤ Real.cos x := fun x hx =>
    cos_ge (abs_le.mpr ⟨hx.1, hx.2⟩)
  have h := Convex.norm_image_sub_le_of_norm_hasDerivWithin_le (f := L) (f' := fun φ => 1 / Real.cos φ) (C := 13)
    (s := Set.Icc (-1.4923 : ℝ) 1.4923) (x := b) (y := a)
    (fun x hx => (L_deriv (by linarith [hs x hx])).hasDerivWithinAt)
    (fun x hx => by
      have hc := hs x hx
      rw [Real.norm_eq_abs, abs_of_pos (by positivity), div_le_iff₀ (by linarith)]
      linarith)
    (convex_Icc _ _) ⟨(abs_le.mp hb).1, (abs_le.mp hb).2⟩ ⟨(abs_le.mp ha).1, (abs_le.mp ha).2⟩
  simpa [Real.norm_eq_abs] using h

/-- the argument of the logarithm is between 1/26 and 26 -/
theorem arg_range {r : ℝ} (h : |r| ≤ 1.4923) :
    1 / 26 ≤ Real.tan r + 1 / Real.cos r ∧ Real.tan r + 1 / Real.cos r ≤ 26 := by
  have hc := cos_ge h
  have hcp : 0 < Real.cos r := by linarith
  have h13 : 1 / Real.cos r ≤ 13 := by rw [div_le_iff₀ hcp]; linarith
  have ht := abs_le.mp (tan_le h)
  refine ⟨?_, by linarith [ht.2]⟩
  have hprod : (Real.tan r + 1 / Real.cos r) * (1 / Real.cos r - Real.tan r) = 1 := by
    have h1 := Real.sin_sq_add_cos_sq r
    rw [Real.tan_eq_sin_div_cos]
    field_simp
    linarith
  have hp : 0 < Real.tan r + 1 / Real.cos r := by rw [arg_eq hcp]; exact div_pos (one_add_sin_pos hcp) hcp
  have hq : 1 / Real.cos r - Real.tan r ≤ 26 := by linarith [ht.1]
  nlinarith

theorem exp4 : (26.5 : ℝ) ≤ Real.exp 4 := by
  have h := Real.exp_one_gt_d9
  have : Real.exp 4 = Real.exp 1 ^ 4 := by rw [← Real.exp_nat_mul]; norm_num
  rw [this]
  have h2 : (2.7 : ℝ) ≤ Real.exp 1 := by linarith
  calc (26.5 : ℝ) ≤ 2.7 ^ 4 := by norm_num
    _ ≤ _ := by gcongr

theorem L_abs {r : ℝ} (h : |r| ≤ 1.4923) : |L r| ≤ 4 := by
  obtain ⟨h1, h2⟩ := arg_range h
  have he := exp4
  have hp : 0 < Real.tan r + 1 / Real.cos r := by linarith
  unfold L
  rw [abs_le]
  constructor
  · rw [Real.le_log_iff_exp_le hp, Real.exp_neg]
    refine le_trans ?_ h1
    rw [inv_le_comm₀ (Real.exp_pos 4) (by norm_num)]
    norm_num
    linarith
  · rw [Real.log_le_iff_le_exp hp]; linarith

theorem inv_near {C c : ℝ} (hC : 1 / 13 ≤ C) (h : |c - C| ≤ C * eps) : |1 / c - 1 / C| ≤ 14 * eps := by
  have he := eps_pos
  have he1 : eps ≤ 1 / 1000000 := by unfold eps; norm_num
  have hcp : 0 < C := by linarith
  have hclo : C * (1 - eps) ≤ c := by have := (abs_le.mp h).1; linarith
  have hcpos : 0 < c := lt_of_lt_of_le (mul_pos hcp (by linarith)) hclo
  have e : 1 / c - 1 / C = -((c - C) / (c * C)) := by field_simp; ring
  rw [e, abs_neg, abs_div, abs_of_pos (mul_pos hcpos hcp), div_le_iff₀ (mul_pos hcpos hcp)]
  refine h.trans ?_
  have h1 : C * (1 / 1000000) ≥ C * eps := by gcongr
  have : 1 ≤ 14 * c := by linarith
  calc C * eps = C * eps * 1 := by ring
    _ ≤ C * eps * (14 * c) := by gcongr
    _ = _ := by ring

theorem logarg_near {a A : ℝ} (hA : 1 / 26 ≤ A) (h : |a - A| ≤ 32.3 * eps) :
    0 < a ∧ |Real.log a - Real.log A| ≤ 1670 * eps := by
  have he := eps_pos
  have he1 : eps ≤ 1 / 1000000 := by unfold eps; norm_num
  have hAp : 0 < A := by linarith
  have hap : 0 < a := by have := (abs_le.mp h).1; linarith
  refine ⟨hap, ?_⟩
  have hrel : |a / A - 1| ≤ 840 * eps := by
    rw [div_sub_one hAp.ne', abs_div, abs_of_pos hAp, div_le_iff₀ hAp]
    have : 840 * eps * (1 / 26) ≤ 840 * eps * A := by gcongr
    linarith
  have hx := abs_le.mp hrel
  rw [← Real.log_div hap.ne' hAp.ne']
  have hq : 0 < a / A := by positivity
  generalize a / A = x at hx hq
  have u := Real.log_le_sub_one_of_pos hq
  have l := Real.one_sub_inv_le_log_of_pos hq
  rw [abs_le]
  refine ⟨?_, by linarith [hx.2]⟩
  have : x⁻¹ ≤ 1 + 1670 * eps := by
    rw [inv_le_comm₀ hq (by linarith), inv_le_iff_one_le_mul₀ (by linarith)]
    nlinarith [hx.1]
  linarith

/-- the rounded logarithm term -/
theorem log_near {M : MathLib} (hM : Accurate M) (r : ℚ) (h : |(r : ℝ)| ≤ 1.4923) :
    |(M.log (rnd (M.tan r + rnd (1 / M.cos r))) : ℝ) - L r| ≤ 1680 * eps := by
  have he := eps_pos
  have he1 : eps ≤ 1 / 1000000 := by unfold eps; norm_num
  have hc := cos_ge h
  have hcp : 0 < Real.cos (r : ℝ) := by linarith
  have htl := tan_le h
  have h13 : 1 / Real.cos (r : ℝ) ≤ 13 := by rw [div_le_iff₀ hcp]; linarith
  have ht := hM.tan r (by linarith)
  have hcs := hM.cos r (by linarith)
  rw [abs_of_pos hcp] at hcs
  obtain ⟨hA1, hA2⟩ := arg_range h
  have hL := L_abs h
  have hinv := inv_near hc hcs
  have hs := rnd_near (q := 1 / M.cos r) (x := 1 / Real.cos (r : ℝ)) (d := 14 * eps) (B := 13)
    (by rw [Rat.cast_div, Rat.cast_one]; exact hinv)
    (by rw [abs_of_pos (by positivity)]; exact h13)
  have hs' : |((rnd (1 / M.cos r) : ℚ) : ℝ) - 1 / Real.cos (r : ℝ)| ≤ 16 * eps := hs.trans (by nlinarith)
  have ht' : |(M.tan r : ℝ) - Real.tan r| ≤ 13 * eps := ht.trans (by gcongr)
  have hsum : |((M.tan r + rnd (1 / M.cos r) : ℚ) : ℝ) - (Real.tan r + 1 / Real.cos (r : ℝ))| ≤ 29 * eps := by
    rw [Rat.cast_add, add_sub_add_comm]
    exact (abs_add_le _ _).trans (by linarith)
  have ha := rnd_near hsum (B := 26) (by rw [abs_le]; constructor <;> linarith)
  have ha' : |((rnd (M.tan r + rnd (1 / M.cos r)) : ℚ) : ℝ) - (Real.tan r + 1 / Real.cos (r : ℝ))| ≤ 32.3 * eps :=
    ha.trans (by nlinarith)
  generalize rnd (M.tan r + rnd (1 / M.cos r)) = aq at ha'
  obtain ⟨hap, hlr⟩ := logarg_near hA1 ha'
  have hlog := hM.log aq (by exact_mod_cast hap)
  have hlr' : |Real.log (aq : ℝ) - L r| ≤ 1670 * eps := hlr
  have hlabs : |Real.log (aq : ℝ)| ≤ 5 := by
    have : Real.log (aq : ℝ) = (Real.log (aq : ℝ) - L r) + L r := by ring
    rw [this]
    exact (abs_add_le _ _).trans (by linarith)
  have hfin : (M.log aq : ℝ) - L r = ((M.log aq : ℝ) - Real.log aq) + (Real.log aq - L r) := by ring
  rw [hfin]
  refine (abs_add_le _ _).trans ?_
  have : |Real.log (aq : ℝ)| * eps ≤ 5 * eps := by gcongr
  linarith

/-- exact row fraction through `L` -/
theorem rowf_L {lat : ℝ} (h1 : -90 < lat) (h2 : lat < 90) : rowf lat = (1 - L (lat * (Real.pi / 180)) / Real.pi) / 2 := by
  have hpi := Real.pi_pos
  unfold rowf L
  rw [log_tan_cos (by nlinarith) (by nlinarith)]

theorem k_near : |((rnd (piC / 180) : ℚ) : ℝ) - Real.pi / 180| ≤ eps / 400 := by
  have he := eps_pos
  have he1 : eps ≤ 1 / 1000000 := by unfold eps; norm_num
  have h := rnd_near (q := piC / 180) (x := Real.pi / 180) (d := eps / 1000 / 180) (B := 3.15 / 180)
    (by rw [Rat.cast_div, Rat.cast_ofNat, ← sub_div, abs_div, abs_of_pos (show (0 : ℝ) < 180 by norm_num)]; gcongr; exact piC_near)
    (by rw [abs_of_pos (by have := Real.pi_pos; positivity)]; have := Real.pi_lt_d2; linarith)
  exact h.trans (by nlinarith)

theorem rad_near (lat : ℚ) (h : |(lat : ℝ)| ≤ 85.5) :
    |((rnd (lat * rnd (piC / 180)) : ℚ) : ℝ) - lat * (Real.pi / 180)| ≤ eps / 2 ∧ |(lat : ℝ) * (Real.pi / 180)| ≤ 1.49227 := by
  have he := eps_pos
  have he1 : eps ≤ 1 / 1000000 := by unfold eps; norm_num
  have hpi := Real.pi_pos
  have hpi2 := Real.pi_lt_d6
  have hb : |(lat : ℝ) * (Real.pi / 180)| ≤ 1.49227 := by
    rw [abs_mul, abs_of_pos (by positivity : 0 < Real.pi / 180)]
    calc |(lat : ℝ)| * (Real.pi / 180) ≤ 85.5 * (3.141593 / 180) := by gcongr
      _ ≤ 1.49227 := by norm_num
  refine ⟨?_, hb⟩
  have h1 : |((lat * rnd (piC / 180) : ℚ) : ℝ) - lat * (Real.pi / 180)| ≤ 85.5 * (eps / 400) := by
    rw [Rat.cast_mul, ← mul_sub, abs_mul]
    exact mul_le_mul h k_near (abs_nonneg _) (by norm_num)
  exact (rnd_near h1 hb).trans (by nlinarith)

theorem row_near {M : MathLib} (hM : Accurate M) (lat : ℚ) (h : |(lat : ℝ)| ≤ 85.5) (z : ℤ) :
    |((rnd (rnd (rnd (1 - rnd (M.log (rnd (M.tan (rnd (lat * rnd (piC / 180))) +
      rnd (1 / M.cos (rnd (lat * rnd (piC / 180)))))) / rnd piC)) / 2) * 2 ^ z) : ℚ) : ℝ) - rowf lat * 2 ^ z|
      ≤ 2 ^ z * (300 * eps) := by
  have he := eps_pos
  have he1 : eps ≤ 1 / 1000000 := by unfold eps; norm_num
  have hn : (0 : ℝ) < 2 ^ z := by positivity
  obtain ⟨hr, hφ⟩ := rad_near lat h
  generalize rnd (lat * rnd (piC / 180)) = r at hr
  have hr' : |(r : ℝ)| ≤ 1.4923 := by
    have : (r : ℝ) = ((r : ℝ) - lat * (Real.pi / 180)) + lat * (Real.pi / 180) := by ring
    rw [this]
    exact (abs_add_le _ _).trans (by linarith)
  have hl := log_near hM r hr'
  have hll := L_lip hr' (hφ.trans (by norm_num))
  obtain ⟨hlat1, hlat2⟩ := abs_le.mp h
  rw [rowf_L (by linarith) (by linarith)]
  have hLa := L_abs (hφ.trans (by norm_num) : |(lat : ℝ) * (Real.pi / 180)| ≤ 1.4923)
  generalize M.log (rnd (M.tan r + rnd (1 / M.cos r))) = l at hl
  generalize L ((lat : ℝ) * (Real.pi / 180)) = Λ at hll hLa
  have hl2 : |(l : ℝ) - Λ| ≤ 1690 * eps := by
    have : (l : ℝ) - Λ = ((l : ℝ) - L r) + (L r - Λ) := by ring
    rw [this]
    exact (abs_add_le _ _).trans (by linarith)
  have hpi := Real.pi_gt_d2
  have hpi0 := Real.pi_pos
  have hfpi := abs_le.mp fpi_near
  have hfp : (3.14 : ℝ) - eps ≤ ((rnd piC : ℚ) : ℝ) := by linarith
  have hfp0 : 0 < ((rnd piC : ℚ) : ℝ) := by linarith
  have hdiv : |((l / rnd piC : ℚ) : ℝ) - Λ / Real.pi| ≤ 540 * eps := by
    rw [Rat.cast_div]
    have e : (l : ℝ) / ((rnd piC : ℚ) : ℝ) - Λ / Real.pi =
        ((l : ℝ) - Λ) / ((rnd piC : ℚ) : ℝ) + (Λ / Real.pi) * ((Real.pi - ((rnd piC : ℚ) : ℝ)) / ((rnd piC : ℚ) : ℝ)) := by
      field_simp; ring
    rw [e]
    refine (abs_add_le _ _).trans ?_
    have e1 : |((l : ℝ) - Λ) / ((rnd piC : ℚ) : ℝ)| ≤ 539 * eps := by
      rw [abs_div, abs_of_pos hfp0, div_le_iff₀ hfp0]
      nlinarith
    have e2 : |(Λ / Real.pi) * ((Real.pi - ((rnd piC : ℚ) : ℝ)) / ((rnd piC : ℚ) : ℝ))| ≤ eps := by
      rw [abs_mul, abs_div, abs_div, abs_of_pos hfp0, abs_of_pos hpi0, abs_sub_comm]
      have a1 : |Λ| / Real.pi ≤ 1.3 := by rw [div_le_iff₀ hpi0]; linarith
      have a2 : |((rnd piC : ℚ) : ℝ) - Real.pi| / ((rnd piC : ℚ) : ℝ) ≤ eps / 2 := by
        rw [div_le_iff₀ hfp0]
        have := fpi_near
        nlinarith
      calc _ ≤ 1.3 * (eps / 2) := by gcongr
        _ ≤ eps := by linarith
    linarith
  have hΛpi : |Λ / Real.pi| ≤ 1.3 := by
    rw [abs_div, abs_of_pos hpi0, div_le_iff₀ hpi0]; linarith
  have h1 : |((rnd (l / rnd piC) : ℚ) : ℝ) - Λ / Real.pi| ≤ 541 * eps :=
    (rnd_near hdiv hΛpi).trans (by nlinarith)
  generalize rnd (l / rnd piC) = d at h1
  generalize Λ / Real.pi = D at h1 hΛpi
  obtain ⟨hD1, hD2⟩ := abs_le.mp hΛpi
  have h2 : |((rnd (1 - d) : ℚ) : ℝ) - (1 - D)| ≤ 542 * eps :=
    (rnd_near (q := 1 - d) (d := 541 * eps) (B := 2.3) (by
      rw [Rat.cast_sub, Rat.cast_one, sub_sub_sub_cancel_left, abs_sub_comm]; exact h1)
      (by rw [abs_le]; constructor <;> linarith)).trans (by nlinarith)
  generalize rnd (1 - d) = e at h2
  have h3 : |((rnd (e / 2) : ℚ) : ℝ) - (1 - D) / 2| ≤ 272 * eps :=
    (rnd_near (q := e / 2) (d := 271 * eps) (B := 1.15) (by
      rw [Rat.cast_div, Rat.cast_ofNat, ← sub_div, abs_div, abs_of_pos (show (0 : ℝ) < 2 by norm_num)]
      linarith)
      (by rw [abs_le]; constructor <;> linarith)).trans (by nlinarith)
  generalize rnd (e / 2) = f at h3
  have h4 := rnd_near (q := f * 2 ^ z) (x := (1 - D) / 2 * 2 ^ z) (d := 272 * eps * 2 ^ z) (B := 1.15 * 2 ^ z)
    (by
      rw [Rat.cast_mul, Rat.cast_zpow, Rat.cast_ofNat, ← sub_mul, abs_mul, abs_of_pos hn]
      gcongr)
    (by
      rw [abs_mul, abs_of_pos hn]
      gcongr
      rw [abs_le]; constructor <;> linarith)
  refine h4.trans ?_
  have : 272 * eps * 2 ^ z + (1.15 * 2 ^ z + 272 * eps * 2 ^ z) * (eps / 8) =
    (2 : ℝ) ^ z * (272 * eps + (1.15 + 272 * eps) * (eps / 8)) := by ring
  rw [this]
  gcongr
  nlinarith

/-! ## corners -/

theorem arctan_lip (a b : ℝ) : |Real.arctan a - Real.arctan b| ≤ |a - b| := by
  have h := Convex.norm_image_sub_le_of_norm_hasDerivWithin_le (f := Real.arctan) (f' := fun x => 1 / (1 + x ^ 2)) (C := 1)
    (s := Set.univ) (x := b) (y := a) (fun x _ => (Real.hasDerivAt_arctan x).hasDerivWithinAt)
    (fun x _ => by
      have : 0 < 1 + x ^ 2 := by positivity
      rw [Real.norm_eq_abs, abs_of_pos (by positivity), div_le_iff₀ this]
      nlinarith [sq_nonneg x])
    convex_univ trivial trivial
  simpa [Real.norm_eq_abs] using h

theorem gd_lip (a b : ℝ) : |Real.arctan (Real.sinh a) - Real.arctan (Real.sinh b)| ≤ |a - b| := by
  have h := Convex.norm_image_sub_le_of_norm_hasDerivWithin_le (f := fun x => Real.arctan (Real.sinh x))
    (f' := fun x => 1 / (1 + Real.sinh x ^ 2) * Real.cosh x) (C := 1)
    (s := Set.univ) (x := b) (y := a) (fun x _ => ((Real.hasDerivAt_sinh x).arctan).hasDerivWithinAt)
    (fun x _ => by
      have h1 := Real.one_le_cosh x
      have h2 := Real.cosh_sq x
      have h3 : 1 + Real.sinh x ^ 2 = Real.cosh x * Real.cosh x := by rw [← pow_two]; linarith
      rw [h3]
      have : 1 / (Real.cosh x * Real.cosh x) * Real.cosh x = 1 / Real.cosh x := by field_simp
      rw [this, Real.norm_eq_abs, abs_of_pos (by positivity), div_le_iff₀ (by linarith)]
      linarith)
    convex_univ trivial trivial
  simpa [Real.norm_eq_abs] using h

theorem sinh_le {v : ℝ} (h : |v| ≤ 4) : |Real.sinh v| ≤ 28 := by
  rw [Real.abs_sinh]
  have h1 : Real.sinh |v| ≤ Real.sinh 4 := Real.sinh_le_sinh.mpr h
  refine h1.trans ?_
  rw [Real.sinh_eq]
  have h2 := Real.exp_one_lt_d9
  have h3 : Real.exp 4 = Real.exp 1 ^ 4 := by rw [← Real.exp_nat_mul]; norm_num
  have h4 : Real.exp 1 ^ 4 ≤ 2.72 ^ 4 := by
    gcongr
    linarith
  have h5 := Real.exp_pos (-4)
  rw [h3]
  norm_num at h4
  linarith

/-- exact division of a small integer by a power of two -/
theorem rnd_dyadic (m : ℤ) (hm : |m| ≤ 2 ^ 53) (Z : ℕ) : rnd ((m : ℚ) / 2 ^ Z) = (m : ℚ) / 2 ^ Z := by
  have h := rnd_exact m (-(Z : ℤ)) hm
  have e : (m : ℚ) * pow2 (-(Z : ℤ)) = (m : ℚ) / 2 ^ Z := by
    rw [pow2_eq, zpow_neg, zpow_natCast]; rfl
  rwa [e] at h

/-- integer coordinates small enough for every conversion to be exact -/
def Small (t : TileID) : Prop := 0 ≤ t.X ∧ t.X ≤ 2 ^ t.Z ∧ 0 ≤ t.Y ∧ t.Y ≤ 2 ^ t.Z ∧ t.Z ≤ 50

theorem Small.pow {t : TileID} (h : Small t) : (2 : ℤ) ^ t.Z ≤ 2 ^ 50 := pow_le_pow_right₀ (by norm_num) h.2.2.2.2

theorem ul_eq (M : MathLib) {t : TileID} (h : Small t) : ul M t =
    (rnd (rnd ((t.X : ℚ) / 2 ^ t.Z * 360) - 180),
      rnd (rnd (180 / piC) * M.atan (M.sinh (rnd (rnd piC * (1 - 2 * t.Y / 2 ^ t.Z)))))) := by
  have hp := h.pow
  obtain ⟨x0, x1, y0, y1, hz⟩ := h
  norm_num at hp
  have b : (2 : ℤ) ^ 53 = 9007199254740992 := by norm_num
  have e1 : rnd ((t.X : ℤ) : ℚ) = t.X := rnd_int _ (by rw [abs_of_nonneg x0, b]; omega)
  have e2 : rnd ((t.X : ℚ) / 2 ^ t.Z) = t.X / 2 ^ t.Z := rnd_dyadic _ (by rw [abs_of_nonneg x0, b]; omega) _
  have e3 : rnd ((t.Y : ℤ) : ℚ) = t.Y := rnd_int _ (by rw [abs_of_nonneg y0, b]; omega)
  have e4 : rnd (2 * (t.Y : ℚ)) = 2 * t.Y := by
    have := rnd_int (2 * t.Y) (by rw [abs_of_nonneg (by omega), b]; omega)
    push_cast at this
    exact this
  have e5 : rnd (2 * (t.Y : ℚ) / 2 ^ t.Z) = 2 * t.Y / 2 ^ t.Z := by
    have := rnd_dyadic (2 * t.Y) (by rw [abs_of_nonneg (by omega), b]; omega) t.Z
    push_cast at this
    exact this
  have e6 : rnd (1 - 2 * (t.Y : ℚ) / 2 ^ t.Z) = 1 - 2 * t.Y / 2 ^ t.Z := by
    have := rnd_dyadic (2 ^ t.Z - 2 * t.Y) (by rw [abs_le, b]; constructor <;> omega) t.Z
    have e : (((2 ^ t.Z - 2 * t.Y : ℤ)) : ℚ) / 2 ^ t.Z = 1 - 2 * t.Y / 2 ^ t.Z := by
      push_cast
      field_simp
    rwa [e] at this
  unfold ul
  simp only [e1, e2, e3, e4, e5, e6]

theorem lon_near (M : MathLib) {t : TileID} (h : Small t) :
    |((ul M t).1 : ℝ) - (Tid.ul t).1| ≤ 70 * eps ∧ |(Tid.ul t).1| ≤ 180 := by
  have he := eps_pos
  have he1 : eps ≤ 1 / 1000000 := by unfold eps; norm_num
  rw [ul_eq M h]
  unfold Tid.ul
  simp only
  have hn : (0 : ℝ) < 2 ^ t.Z := by positivity
  have f0 : (0 : ℝ) ≤ (t.X : ℝ) / 2 ^ t.Z := div_nonneg (by exact_mod_cast h.1) hn.le
  have f1 : (t.X : ℝ) / 2 ^ t.Z ≤ 1 := by rw [div_le_one hn]; exact_mod_cast h.2.1
  have a := rnd_near (q := (t.X : ℚ) / 2 ^ t.Z * 360) (x := (t.X : ℝ) / 2 ^ t.Z * 360) (d := 0) (B := 360)
    (by push_cast; simp) (by rw [abs_le]; constructor <;> linarith)
  generalize rnd ((t.X : ℚ) / 2 ^ t.Z * 360) = q at a
  generalize (t.X : ℝ) / 2 ^ t.Z = f at a f0 f1
  have b := rnd_near (q := q - 180) (x := f * 360 - 180) (d := 45 * eps) (B := 180)
    (by rw [Rat.cast_sub, Rat.cast_ofNat, sub_sub_sub_cancel_right]; linarith)
    (by rw [abs_le]; constructor <;> linarith)
  exact ⟨b.trans (by nlinarith), by rw [abs_le]; constructor <;> linarith⟩

theorem kdeg_near : |((rnd (180 / piC) : ℚ) : ℝ) - 180 / Real.pi| ≤ 8 * eps := by
  have he := eps_pos
  have he1 : eps ≤ 1 / 1000000 := by unfold eps; norm_num
  have hpi := Real.pi_gt_d2
  have hp := abs_le.mp piC_near
  have hp0 : 0 < Real.pi := Real.pi_pos
  have hc : (3 : ℝ) ≤ piC := by linarith
  have h1 : |((180 / piC : ℚ) : ℝ) - 180 / Real.pi| ≤ eps / 2 := by
    rw [Rat.cast_div, Rat.cast_ofNat]
    have e : (180 : ℝ) / piC - 180 / Real.pi = 180 * (Real.pi - piC) / (piC * Real.pi) := by field_simp
    have hprod : 9 ≤ (piC : ℝ) * Real.pi := by nlinarith
    rw [e, abs_div, abs_mul, abs_of_pos (by linarith : 0 < (piC : ℝ) * Real.pi), abs_sub_comm,
      div_le_iff₀ (by linarith), abs_of_pos (show (0 : ℝ) < 180 by norm_num)]
    have := piC_near
    nlinarith
  refine (rnd_near h1 (B := 57.4) ?_).trans (by nlinarith)
  rw [abs_of_pos (by positivity), div_le_iff₀ hp0]
  linarith

theorem lat_near {M : MathLib} (hM : Accurate M) {t : TileID} (h : Small t) :
    |((ul M t).2 : ℝ) - (Tid.ul t).2| ≤ 1900 * eps := by
  have he := eps_pos
  have he1 : eps ≤ 1 / 1000000 := by unfold eps; norm_num
  rw [ul_eq M h]
  unfold Tid.ul
  simp only
  have hn : (0 : ℝ) < 2 ^ t.Z := by positivity
  have f0 : (0 : ℝ) ≤ (t.Y : ℝ) / 2 ^ t.Z := div_nonneg (by exact_mod_cast h.2.2.1) hn.le
  have f1 : (t.Y : ℝ) / 2 ^ t.Z ≤ 1 := by rw [div_le_one hn]; exact_mod_cast h.2.2.2.1
  have ew : ((1 - 2 * t.Y / 2 ^ t.Z : ℚ) : ℝ) = 1 - 2 * (t.Y : ℝ) / 2 ^ t.Z := by push_cast; ring
  have hw : |1 - 2 * (t.Y : ℝ) / 2 ^ t.Z| ≤ 1 := by
    have : 2 * (t.Y : ℝ) / 2 ^ t.Z = 2 * ((t.Y : ℝ) / 2 ^ t.Z) := by ring
    rw [this, abs_le]; constructor <;> linarith
  generalize (1 - 2 * (t.Y : ℚ) / 2 ^ t.Z) = wq at ew
  generalize 1 - 2 * (t.Y : ℝ) / 2 ^ t.Z = w at ew hw
  have hpi := Real.pi_pos
  have hpi2 := Real.pi_lt_d2
  have hpi1 := Real.pi_gt_d2
  have hvq : |((rnd piC * wq : ℚ) : ℝ) - Real.pi * w| ≤ eps / 2 := by
    rw [Rat.cast_mul, ew, ← sub_mul, abs_mul]
    calc _ ≤ eps / 2 * 1 := mul_le_mul fpi_near hw (abs_nonneg _) (by linarith)
      _ = _ := by ring
  have hvB : |Real.pi * w| ≤ 3.15 := by
    rw [abs_mul, abs_of_pos hpi]
    calc Real.pi * |w| ≤ 3.15 * 1 := mul_le_mul hpi2.le hw (abs_nonneg _) (by norm_num)
      _ = 3.15 := by norm_num
  have hv : |((rnd (rnd piC * wq) : ℚ) : ℝ) - Real.pi * w| ≤ eps := (rnd_near hvq hvB).trans (by nlinarith)
  generalize rnd (rnd piC * wq) = v at hv
  have hv4 : |(v : ℝ)| ≤ 4 := by
    have : (v : ℝ) = ((v : ℝ) - Real.pi * w) + Real.pi * w := by ring
    rw [this]
    exact (abs_add_le _ _).trans (by linarith)
  have hs := hM.sinh v hv4
  have hs28 := sinh_le hv4
  have hs' : |(M.sinh v : ℝ) - Real.sinh v| ≤ 28 * eps := hs.trans (by gcongr)
  have hat := hM.atan (M.sinh v)
  have habs : ∀ x : ℝ, |Real.arctan x| ≤ 1.58 := by
    intro x
    have h1 := Real.arctan_lt_pi_div_two x
    have h2 := Real.neg_pi_div_two_lt_arctan x
    rw [abs_le]; constructor <;> linarith
  have hat' : |(M.atan (M.sinh v) : ℝ) - Real.arctan (M.sinh v)| ≤ 1.58 * eps := hat.trans (by gcongr; exact habs _)
  have hrad : |(M.atan (M.sinh v) : ℝ) - Real.arctan (Real.sinh (Real.pi * w))| ≤ 31 * eps := by
    have e : (M.atan (M.sinh v) : ℝ) - Real.arctan (Real.sinh (Real.pi * w)) =
        ((M.atan (M.sinh v) : ℝ) - Real.arctan (M.sinh v)) + ((Real.arctan (M.sinh v) - Real.arctan (Real.sinh v)) +
          (Real.arctan (Real.sinh v) - Real.arctan (Real.sinh (Real.pi * w)))) := by ring
    have l1 := arctan_lip (M.sinh v) (Real.sinh v)
    have l2 := gd_lip v (Real.pi * w)
    rw [e]
    refine (abs_add_le _ _).trans ?_
    have := abs_add_le (Real.arctan (M.sinh v : ℝ) - Real.arctan (Real.sinh v))
      (Real.arctan (Real.sinh v) - Real.arctan (Real.sinh (Real.pi * w)))
    linarith
  have hgB := habs (Real.sinh (Real.pi * w))
  generalize M.atan (M.sinh v) = a at hrad
  generalize Real.arctan (Real.sinh (Real.pi * w)) = g at hrad hgB
  have hk := kdeg_near
  have hkB : 180 / Real.pi ≤ 57.4 := by rw [div_le_iff₀ hpi]; linarith
  have hk0 : 0 < 180 / Real.pi := by positivity
  generalize rnd (180 / piC) = kq at hk
  generalize 180 / Real.pi = k at hk hkB hk0
  have hprod : |((kq * a : ℚ) : ℝ) - k * g| ≤ 1800 * eps := by
    rw [Rat.cast_mul]
    have e : (kq : ℝ) * a - k * g = ((kq : ℝ) - k) * a + k * ((a : ℝ) - g) := by ring
    have ha2 : |(a : ℝ)| ≤ 1.6 := by
      have : (a : ℝ) = ((a : ℝ) - g) + g := by ring
      rw [this]
      exact (abs_add_le _ _).trans (by linarith)
    rw [e]
    refine (abs_add_le _ _).trans ?_
    rw [abs_mul, abs_mul, abs_of_pos hk0]
    have p1 : |(kq : ℝ) - k| * |(a : ℝ)| ≤ 8 * eps * 1.6 := mul_le_mul hk ha2 (abs_nonneg _) (by linarith)
    have p2 : k * |(a : ℝ) - g| ≤ 57.4 * (31 * eps) := mul_le_mul hkB hrad (abs_nonneg _) (by norm_num)
    linarith
  have hB : |k * g| ≤ 91 := by
    rw [abs_mul, abs_of_pos hk0]
    calc k * |g| ≤ 57.4 * 1.58 := mul_le_mul hkB hgB (abs_nonneg _) (by norm_num)
      _ ≤ 91 := by norm_num
  exact (rnd_near hprod hB).trans (by nlinarith)

/-! ## the map is within 85.4 degrees -/

theorem sinh_pi_le : Real.sinh Real.pi ≤ 12 := by
  rw [Real.sinh_eq]
  have hp := Real.pi_lt_d4
  have h1 : Real.exp Real.pi ≤ Real.exp 1 ^ 3 * Real.exp 0.1416 := by
    rw [← Real.exp_nat_mul, ← Real.exp_add]
    apply Real.exp_le_exp.mpr
    push_cast
    linarith
  have h2 := Real.exp_one_lt_d9
  have h3 : Real.exp 1 ^ 3 ≤ 2.7183 ^ 3 := by
    gcongr
    linarith
  have h4 := Real.exp_bound_div_one_sub_of_interval (x := 0.1416) (by norm_num) (by norm_num)
  have h5 := Real.exp_pos (-Real.pi)
  have h6 : Real.exp 1 ^ 3 * Real.exp 0.1416 ≤ 2.7183 ^ 3 * (1 / (1 - 0.1416)) := by gcongr
  have h7 : (2.7183 : ℝ) ^ 3 * (1 / (1 - 0.1416)) ≤ 23.5 := by norm_num
  linarith

theorem gd_pi_le : Real.arctan (Real.sinh Real.pi) ≤ 85.4 / 180 * Real.pi := by
  have hp := Real.pi_lt_d4
  have hp2 := Real.pi_gt_d4
  have e : (85.4 : ℝ) / 180 * Real.pi = Real.pi / 2 - 4.6 / 180 * Real.pi := by ring
  have hx0 : 0 < 4.6 / 180 * Real.pi := by positivity
  have hx1 : 4.6 / 180 * Real.pi ≤ 0.0803 := by linarith
  rw [← Real.arctan_tan (x := 85.4 / 180 * Real.pi) (by linarith) (by linarith)]
  apply Real.arctan_mono
  rw [e, Real.tan_pi_div_two_sub]
  refine sinh_pi_le.trans ?_
  have hc := Real.one_sub_sq_div_two_le_cos (x := 4.6 / 180 * Real.pi)
  have hs := Real.sin_le hx0.le
  generalize 4.6 / 180 * Real.pi = x at *
  have hsp : 0 < Real.sin x := Real.sin_pos_of_pos_of_lt_pi hx0 (by linarith)
  have hcp : 0 < Real.cos x := by nlinarith
  rw [Real.tan_eq_sin_div_cos, inv_div, le_div_iff₀ hsp]
  nlinarith

/-- edges of tiles in radians -/
theorem gd_le {v : ℝ} (h : |v| ≤ Real.pi) : |Real.arctan (Real.sinh v)| ≤ 85.4 / 180 * Real.pi := by
  obtain ⟨h1, h2⟩ := abs_le.mp h
  have a := gd_pi_le
  have b : Real.arctan (Real.sinh v) ≤ Real.arctan (Real.sinh Real.pi) := Real.arctan_mono (Real.sinh_le_sinh.mpr h2)
  have c : Real.arctan (Real.sinh (-Real.pi)) ≤ Real.arctan (Real.sinh v) := Real.arctan_mono (Real.sinh_le_sinh.mpr h1)
  rw [Real.sinh_neg, Real.arctan_neg] at c
  rw [abs_le]; constructor <;> linarith

theorem L_gd (v : ℝ) : L (Real.arctan (Real.sinh v)) = v := by
  unfold L
  rw [log_tan_cos (Real.neg_pi_div_two_lt_arctan _) (Real.arctan_lt_pi_div_two _), Real.tan_arctan, Real.arsinh_sinh]

theorem gd_L {φ : ℝ} (h1 : -(Real.pi / 2) < φ) (h2 : φ < Real.pi / 2) : Real.arctan (Real.sinh (L φ)) = φ := by
  unfold L
  rw [log_tan_cos h1 h2, Real.sinh_arsinh, Real.arctan_tan h1 h2]

theorem lat_abs {t : TileID} (h : Small t) : |(Tid.ul t).2| ≤ 85.4 ∧
    L ((Tid.ul t).2 * (Real.pi / 180)) = Real.pi * (1 - 2 * (t.Y : ℝ) / 2 ^ t.Z) := by
  have hpi := Real.pi_pos
  unfold Tid.ul
  simp only
  have hn : (0 : ℝ) < 2 ^ t.Z := by positivity
  have f0 : (0 : ℝ) ≤ (t.Y : ℝ) / 2 ^ t.Z := div_nonneg (by exact_mod_cast h.2.2.1) hn.le
  have f1 : (t.Y : ℝ) / 2 ^ t.Z ≤ 1 := by rw [div_le_one hn]; exact_mod_cast h.2.2.2.1
  have hw : |1 - 2 * (t.Y : ℝ) / 2 ^ t.Z| ≤ 1 := by
    have : 2 * (t.Y : ℝ) / 2 ^ t.Z = 2 * ((t.Y : ℝ) / 2 ^ t.Z) := by ring
    rw [this, abs_le]; constructor <;> linarith
  generalize 1 - 2 * (t.Y : ℝ) / 2 ^ t.Z = w at hw
  have hv : |Real.pi * w| ≤ Real.pi := by
    rw [abs_mul, abs_of_pos hpi]
    nlinarith
  have hg := gd_le hv
  constructor
  · rw [abs_mul, abs_of_pos (by positivity : 0 < 180 / Real.pi), div_mul_eq_mul_div, div_le_iff₀ hpi]
    linarith
  · have e : 180 / Real.pi * Real.arctan (Real.sinh (Real.pi * w)) * (Real.pi / 180) = Real.arctan (Real.sinh (Real.pi * w)) := by
      field_simp
    rw [e, L_gd]

/-! ## the centre -/

/-- Lower right neighbour corner. -/
def se (t : TileID) : TileID := ⟨t.X + 1, t.Y + 1, t.Z⟩

theorem small_of_grid {t : TileID} (hg : t.InGrid) (hz : t.Z ≤ 50) : Small t ∧ Small (se t) := by
  obtain ⟨a, b, c, d⟩ := hg
  unfold Small se
  refine ⟨⟨a, b.le, c, d.le, hz⟩, ⟨?_, ?_, ?_, ?_, hz⟩⟩ <;> simp only <;> omega

theorem bounds_eq (M : MathLib) {t : TileID} (hg : t.InGrid) (hz : t.Z ≤ 50) :
    bounds M t = { W := (ul M t).1, S := (ul M (se t)).2, E := (ul M (se t)).1, N := (ul M t).2 } := by
  have hp := (small_of_grid hg hz).1.pow
  norm_num at hp
  obtain ⟨a, b, c, d⟩ := hg
  have e1 : i64 (t.X + 1) = t.X + 1 := i64_of_lt (by unfold IsI64; omega)
  have e2 : i64 (t.Y + 1) = t.Y + 1 := i64_of_lt (by unfold IsI64; omega)
  unfold bounds se
  simp only [e1, e2]

theorem mid_near {a b : ℚ} {A B d R : ℝ} (ha : |(a : ℝ) - A| ≤ d) (hb : |(b : ℝ) - B| ≤ d) (hA : |A| ≤ R) (hB : |B| ≤ R)
    (hd0 : 0 ≤ d) (hd : d ≤ R) : |((rnd (rnd (a + b) / 2) : ℚ) : ℝ) - (A + B) / 2| ≤ d + R * eps := by
  have he := eps_pos
  have he1 : eps ≤ 1 / 1000000 := by unfold eps; norm_num
  have h1 : |((a + b : ℚ) : ℝ) - (A + B)| ≤ 2 * d := by
    rw [Rat.cast_add, add_sub_add_comm]
    exact (abs_add_le _ _).trans (by linarith)
  have hAB : |A + B| ≤ 2 * R := (abs_add_le _ _).trans (by linarith)
  have h2 := rnd_near h1 hAB
  generalize rnd (a + b) = c at h2
  have h3 : |((c / 2 : ℚ) : ℝ) - (A + B) / 2| ≤ d + (R + d) * (eps / 8) := by
    rw [Rat.cast_div, Rat.cast_ofNat, ← sub_div, abs_div, abs_of_pos (show (0 : ℝ) < 2 by norm_num)]
    linarith
  have h4 := rnd_near h3 (B := R) (by
    rw [abs_div, abs_of_pos (show (0 : ℝ) < 2 by norm_num)]; linarith)
  refine h4.trans ?_
  have hR : 0 ≤ R := by linarith
  have : (R + d) * (eps / 8) ≤ 2 * R * (eps / 8) := by gcongr; linarith
  have h5 : (R + d) * (eps / 8) ≤ R := by nlinarith
  have h6 : (R + (d + (R + d) * (eps / 8))) * (eps / 8) ≤ (3 * R) * (eps / 8) := by
    gcongr
    linarith
  have h7 : 0 ≤ R * eps := by positivity
  linarith

theorem center_near {M : MathLib} (hM : Accurate M) {t : TileID} (hg : t.InGrid) (hz : t.Z ≤ 50) :
    |((center M t).1 : ℝ) - (Tid.center t).1| ≤ 250 * eps ∧ |((center M t).2 : ℝ) - (Tid.center t).2| ≤ 2000 * eps := by
  have he := eps_pos
  have he1 : eps ≤ 1 / 1000000 := by unfold eps; norm_num
  obtain ⟨s1, s2⟩ := small_of_grid hg hz
  unfold center
  rw [bounds_eq M hg hz]
  unfold Tid.center Tid.bounds
  simp only
  have x1 := lon_near M s1
  have x2 := lon_near M s2
  have y1 := lat_near hM s1
  have y2 := lat_near hM s2
  have z1 := (lat_abs s1).1
  have z2 := (lat_abs s2).1
  refine ⟨(mid_near x1.1 x2.1 x1.2 x2.2 (by linarith) (by linarith)).trans (by linarith),
    (mid_near y1 y2 z1 z2 (by linarith) (by linarith)).trans (by linarith)⟩

set_option maxHeartbeats 1000000 in
/-- The exact centre: halfway in the column, at least 1/26 tile away from the edges in the row. -/
theorem center_inside {t : TileID} (hg : t.InGrid) (hz : t.Z ≤ 50) :
    ((Tid.center t).1 + 180) / 360 * 2 ^ t.Z = t.X + 1 / 2 ∧
      (t.Y : ℝ) + 1 / 26 ≤ rowf (Tid.center t).2 * 2 ^ t.Z ∧ rowf (Tid.center t).2 * 2 ^ t.Z ≤ t.Y + 1 - 1 / 26 ∧
      |(Tid.center t).2| ≤ 85.4 ∧ |(Tid.center t).1| ≤ 180 := by
  obtain ⟨s1, s2⟩ := small_of_grid hg hz
  have hn : (0 : ℝ) < 2 ^ t.Z := by positivity
  have hpi := Real.pi_pos
  have hpi2 := Real.pi_lt_d6
  obtain ⟨a1, l1⟩ := lat_abs s1
  obtain ⟨a2, l2⟩ := lat_abs s2
  have p := C04_positive_size t
  obtain ⟨b1, b2⟩ := abs_le.mp a1
  obtain ⟨b3, b4⟩ := abs_le.mp a2
  have c1 := (abs_le.mp (lon_near ⟨id, id, id, id, id⟩ s1).2)
  have c2 := (abs_le.mp (lon_near ⟨id, id, id, id, id⟩ s2).2)
  have hcen : Tid.center t = (((Tid.ul t).1 + (Tid.ul (se t)).1) / 2, ((Tid.ul t).2 + (Tid.ul (se t)).2) / 2) := rfl
  have hlt : (Tid.ul (se t)).2 < (Tid.ul t).2 := p.2
  rw [hcen]
  simp only
  refine ⟨?_, ?_, ?_, ?_, ?_⟩
  · unfold Tid.ul se
    simp only
    push_cast
    field_simp
    ring
  all_goals try (rw [abs_le]; constructor <;> linarith)
  all_goals
    have hY : (((se t).Y : ℤ) : ℝ) = t.Y + 1 := by unfold se; push_cast; rfl
    have hZ : (se t).Z = t.Z := rfl
    rw [hY, hZ] at l2
    generalize (Tid.ul t).2 = N at *
    generalize (Tid.ul (se t)).2 = S at *
    rw [rowf_L (by linarith) (by linarith)]
    have k0 : 0 < Real.pi / 180 := by positivity
    have k1 : Real.pi / 180 ≤ 3.141593 / 180 := by gcongr
    have dom : ∀ x : ℝ, |x| ≤ 85.4 → |x * (Real.pi / 180)| ≤ 1.4923 := by
      intro x hx
      rw [abs_mul, abs_of_pos k0]
      calc |x| * (Real.pi / 180) ≤ 85.4 * (3.141593 / 180) := by gcongr
        _ ≤ 1.4923 := by norm_num
    have domC : |(N + S) / 2| ≤ 85.4 := by rw [abs_le]; constructor <;> linarith
    have half : ∀ x : ℝ, |x| ≤ 85.4 → -(Real.pi / 2) < x * (Real.pi / 180) ∧ x * (Real.pi / 180) < Real.pi / 2 := by
      intro x hx
      obtain ⟨u, v⟩ := abs_le.mp hx
      constructor <;> nlinarith
    have lipNS := L_lip (dom N a1) (dom S a2)
    rw [l1, l2] at lipNS
    have g1 := gd_L (half N a1).1 (half N a1).2
    have g2 := gd_L (half S a2).1 (half S a2).2
    have g3 := gd_L (half _ domC).1 (half _ domC).2
    have e1 : Real.pi * (1 - 2 * (t.Y : ℝ) / 2 ^ t.Z) - Real.pi * (1 - 2 * ((t.Y : ℝ) + 1) / 2 ^ t.Z) = 2 * Real.pi / 2 ^ t.Z := by
      field_simp
      ring
    rw [e1, abs_of_pos (by positivity), ← sub_mul, abs_of_pos (mul_pos (by linarith) k0)] at lipNS
    have mono : ∀ a b : ℝ, Real.arctan (Real.sinh a) < Real.arctan (Real.sinh b) → a < b := by
      intro a b hab
      exact Real.sinh_lt_sinh.mp (Real.arctan_strictMono.lt_iff_lt.mp hab)
  · have lip := gd_lip (L (N * (Real.pi / 180))) (L ((N + S) / 2 * (Real.pi / 180)))
    have hord : L ((N + S) / 2 * (Real.pi / 180)) < L (N * (Real.pi / 180)) := mono _ _ (by rw [g1, g3]; nlinarith)
    rw [g1, g3, abs_of_pos (by nlinarith), abs_of_pos (by linarith), l1] at lip
    generalize L ((N + S) / 2 * (Real.pi / 180)) = C at lip
    have h1 : Real.pi / (13 * 2 ^ t.Z) ≤ (N - S) * (Real.pi / 180) / 2 := by
      rw [div_le_iff₀ (by positivity)]
      rw [div_le_iff₀ hn] at lipNS
      linarith
    have h2 : Real.pi / (13 * 2 ^ t.Z) ≤ Real.pi * (1 - 2 * (t.Y : ℝ) / 2 ^ t.Z) - C := by linarith
    have h3 : C / Real.pi ≤ 1 - 2 * (t.Y : ℝ) / 2 ^ t.Z - 1 / (13 * 2 ^ t.Z) := by
      rw [div_le_iff₀ hpi]
      have : Real.pi / (13 * (2 : ℝ) ^ t.Z) = 1 / (13 * 2 ^ t.Z) * Real.pi := by ring
      linarith
    calc (t.Y : ℝ) + 1 / 26 = (1 - (1 - 2 * (t.Y : ℝ) / 2 ^ t.Z - 1 / (13 * 2 ^ t.Z))) / 2 * 2 ^ t.Z := by
          field_simp; ring
      _ ≤ _ := by gcongr
  · have lip := gd_lip (L ((N + S) / 2 * (Real.pi / 180))) (L (S * (Real.pi / 180)))
    have hord : L (S * (Real.pi / 180)) < L ((N + S) / 2 * (Real.pi / 180)) := mono _ _ (by rw [g2, g3]; nlinarith)
    rw [g2, g3, abs_of_pos (by nlinarith), abs_of_pos (by linarith), l2] at lip
    generalize L ((N + S) / 2 * (Real.pi / 180)) = C at lip
    have h1 : Real.pi / (13 * 2 ^ t.Z) ≤ (N - S) * (Real.pi / 180) / 2 := by
      rw [div_le_iff₀ (by positivity)]
      rw [div_le_iff₀ hn] at lipNS
      linarith
    have h2 : Real.pi / (13 * 2 ^ t.Z) ≤ C - Real.pi * (1 - 2 * ((t.Y : ℝ) + 1) / 2 ^ t.Z) := by linarith
    have h3 : 1 - 2 * ((t.Y : ℝ) + 1) / 2 ^ t.Z + 1 / (13 * 2 ^ t.Z) ≤ C / Real.pi := by
      rw [le_div_iff₀ hpi]
      have : Real.pi / (13 * (2 : ℝ) ^ t.Z) = 1 / (13 * 2 ^ t.Z) * Real.pi := by ring
      linarith
    calc _ ≤ (1 - (1 - 2 * ((t.Y : ℝ) + 1) / 2 ^ t.Z + 1 / (13 * 2 ^ t.Z))) / 2 * 2 ^ t.Z := by gcongr
      _ = (t.Y : ℝ) + 1 - 1 / 26 := by field_simp; ring

end Verif.Tid.Float
