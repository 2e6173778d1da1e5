import Verif.Props.TileCoverMeridian
import Verif.Props.MvtReduceFloat

/-! # C90: every tile of a line's cover lies at the line, in float64 -/
namespace Verif.CoverF
open Verif.F64 Verif.Tid.Float Verif.Go
open Verif.Tid (TileID)
open Verif.Cover (fillVals fillVals_mem)
open Verif.Reduce (RelE relE_rnd uu uu_pos uu_small rnd_near')

theorem relE_div {a b x' x y' y : ℚ} (hx : RelE a x' x) (hy : RelE b y' y) (hb : b ≤ 1000) (hb0 : 0 ≤ a + b) (h0 : y ≠ 0) :
    RelE (1002 / 1000 * (a + b)) (x' / y') (x / y) := by
  unfold RelE at *
  have hyp : 0 < |y| := abs_pos.mpr h0
  have hbu : b * uu ≤ 1 / 1000 := by
    have := mul_le_mul hb uu_small uu_pos.le (by norm_num)
    linarith
  have hy1 : 999 / 1000 * |y| ≤ |y'| := by
    have h1 := abs_sub_abs_le_abs_sub y y'
    rw [abs_sub_comm] at h1
    have := mul_le_mul_of_nonneg_right hbu hyp.le
    linarith
  have hy'p : 0 < |y'| := by linarith
  have hy'0 : y' ≠ 0 := abs_pos.mp hy'p
  have e : x' / y' - x / y = ((x' - x) * y - x * (y' - y)) / (y' * y) := by field_simp; ring
  rw [e, abs_div, abs_mul y' y, div_le_iff₀ (mul_pos hy'p hyp)]
  have h1 : |(x' - x) * y - x * (y' - y)| ≤ (a + b) * uu * (|x| * |y|) := by
    refine (abs_sub _ _).trans ?_
    rw [abs_mul, abs_mul]
    have p1 := mul_le_mul_of_nonneg_right hx hyp.le
    have p2 := mul_le_mul_of_nonneg_left hy (abs_nonneg x)
    linarith
  refine h1.trans ?_
  rw [abs_div]
  have e2 : 1002 / 1000 * (a + b) * uu * (|x| / |y|) * (|y'| * |y|) = (a + b) * uu * |x| * (1002 / 1000 * |y'|) := by
    field_simp
  rw [e2]
  have h2 : |y| ≤ 1002 / 1000 * |y'| := by linarith
  have h3 : 0 ≤ (a + b) * uu * |x| := mul_nonneg (mul_nonneg hb0 uu_pos.le) (abs_nonneg x)
  have := mul_le_mul_of_nonneg_left h2 h3
  linarith

/-- The error of the value `Interpolate` computes. -/
theorem interp_err {a1 b1 a2 b2 v : ℚ} (h0 : b1 - a1 ≠ 0) (hr : |v - a1| ≤ 20 * |b1 - a1|) (ha : |a2| ≤ 180) (hb : |b2| ≤ 180) :
    |rnd (a2 + rnd (rnd (v - a1) * rnd (rnd (b2 - a2) / rnd (b1 - a1)))) - (a2 + (v - a1) / (b1 - a1) * (b2 - a2))| ≤ 1 / 10 ^ 11 := by
  have q := ((relE_div (relE_rnd (b2 - a2)) (relE_rnd (b1 - a1)) (by norm_num) (by norm_num) h0).rnd (by norm_num)).weaken
    (show _ ≤ (31 / 10 : ℚ) by norm_num)
  have P := (((relE_rnd (v - a1)).mul q (by norm_num) (by norm_num)).rnd (by norm_num)).weaken (show _ ≤ (52 / 10 : ℚ) by norm_num)
  have e : (v - a1) * ((b2 - a2) / (b1 - a1)) = (v - a1) / (b1 - a1) * (b2 - a2) := by ring
  rw [e] at P
  have hpos : 0 < |b1 - a1| := abs_pos.mpr h0
  have hw : |(v - a1) / (b1 - a1) * (b2 - a2)| ≤ 20 * 360 := by
    apply Verif.Clip.abs_mul_le
    · rw [abs_div, div_le_iff₀ hpos]; exact hr
    · exact (abs_sub _ _).trans (by linarith)
  unfold RelE at P
  generalize rnd (rnd (v - a1) * rnd (rnd (b2 - a2) / rnd (b1 - a1))) = R at *
  generalize (v - a1) / (b1 - a1) * (b2 - a2) = w at *
  have hu := uu_pos
  have P' : |R - w| ≤ 37440 * uu := by
    refine P.trans ?_
    have := mul_le_mul_of_nonneg_left hw hu.le
    linarith
  have hR : |a2 + R| ≤ 7400 := by
    have h1 := abs_add_le a2 R
    have h2 := abs_sub_abs_le_abs_sub R w
    have := uu_small
    linarith
  have e4 : |a2 + R - (a2 + w)| ≤ 37440 * uu := by rw [add_sub_add_left_eq_sub]; exact P'
  refine (rnd_near' e4 hR).trans ?_
  unfold uu
  norm_num

/-- a value sampled beside an edge -/
theorem sample_edge {w val : ℚ} {x : ℝ} (hw : |(w : ℝ) - x| ≤ 1900 * eps) (hx : |x| ≤ 180) (hv : val = rnd (w - eps7) ∨ val = rnd (w + eps7)) :
    |(val : ℝ) - x| ≤ 1001 / 10 ^ 10 := by
  have he := eps_pos
  have hE : eps = 1 / 1125899906842624 := by unfold eps; norm_num
  have c := eps7_near
  generalize eps7 = q at c hv
  obtain ⟨x1, x2⟩ := abs_le.mp hx
  rcases hv with rfl | rfl
  · have s := rnd_near (q := w - q) (x := x - 1 / 10 ^ 7) (d := 1901 * eps) (B := 181) (by
      push_cast
      have e2 : (w : ℝ) - q - (x - 1 / 10 ^ 7) = (w - x) - (q - 1 / 10 ^ 7) := by ring
      rw [e2]
      exact (abs_sub _ _).trans (by linarith)) (by rw [abs_le]; constructor <;> norm_num <;> linarith)
    rw [hE] at s
    obtain ⟨s1, s2⟩ := abs_le.mp s
    norm_num at s1 s2
    rw [abs_le]; constructor <;> norm_num <;> linarith
  · have s := rnd_near (q := w + q) (x := x + 1 / 10 ^ 7) (d := 1901 * eps) (B := 181) (by
      push_cast
      have e2 : (w : ℝ) + q - (x + 1 / 10 ^ 7) = (w - x) + (q - 1 / 10 ^ 7) := by ring
      rw [e2]
      exact (abs_add_le _ _).trans (by linarith)) (by rw [abs_le]; constructor <;> norm_num <;> linarith)
    rw [hE] at s
    obtain ⟨s1, s2⟩ := abs_le.mp s
    norm_num at s1 s2
    rw [abs_le]; constructor <;> norm_num <;> linarith

theorem nearest {lo hi val x : ℝ} (hv : |val - x| ≤ 1001 / 10 ^ 10) (h1 : lo - 1 / 10 ^ 10 ≤ x) (h2 : x ≤ hi + 1 / 10 ^ 10) (h : lo < hi) :
    ∃ m, lo ≤ m ∧ m ≤ hi ∧ |val - m| ≤ 1002 / 10 ^ 10 := by
  obtain ⟨v1, v2⟩ := abs_le.mp hv
  norm_num at v1 v2 h1 h2
  by_cases a : val < lo
  · refine ⟨lo, le_rfl, h.le, ?_⟩
    rw [abs_of_neg (by linarith)]; norm_num; linarith
  · by_cases b : hi < val
    · refine ⟨hi, h.le, le_rfl, ?_⟩
      rw [abs_of_pos (by linarith)]; norm_num; linarith
    · refine ⟨val, not_lt.1 a, not_lt.1 b, ?_⟩
      rw [sub_self, abs_zero]; norm_num

/-- the sample as a parameter of the segment -/
theorem sample_param {A B val x : ℝ} (hv : |val - x| ≤ 1001 / 10 ^ 10)
    (hx : (A - 1 / 10 ^ 10 ≤ x ∧ x ≤ B + 1 / 10 ^ 10 ∧ A < B) ∨ (B - 1 / 10 ^ 10 ≤ x ∧ x ≤ A + 1 / 10 ^ 10 ∧ B < A)) (hAB : 1 / 10 ^ 8 ≤ |B - A|) :
    |val - A| ≤ 20 * |B - A| ∧ ∃ k : ℝ, 0 ≤ k ∧ k ≤ 1 ∧ |(val - A) / (B - A) - k| * |B - A| ≤ 1002 / 10 ^ 10 := by
  obtain ⟨v1, v2⟩ := abs_le.mp hv
  norm_num at v1 v2
  have h0 : B - A ≠ 0 := by
    intro h
    rw [h, abs_zero] at hAB
    norm_num at hAB
  have hmove : ∀ m : ℝ, |(val - A) / (B - A) - (m - A) / (B - A)| * |B - A| = |val - m| := by
    intro m
    rw [← abs_mul]
    congr 1
    field_simp
    ring
  constructor
  · rcases hx with ⟨h1, h2, h3⟩ | ⟨h1, h2, h3⟩
    · rw [abs_of_pos (by linarith : 0 < B - A)] at hAB ⊢
      norm_num at h1 h2 hAB
      rw [abs_le]; constructor <;> linarith
    · rw [abs_of_neg (by linarith : B - A < 0)] at hAB ⊢
      norm_num at h1 h2 hAB
      rw [abs_le]; constructor <;> linarith
  · rcases hx with ⟨h1, h2, h3⟩ | ⟨h1, h2, h3⟩
    · have hp : 0 < B - A := by linarith
      obtain ⟨m, m1, m2, m3⟩ := nearest hv h1 h2 h3
      refine ⟨(m - A) / (B - A), div_nonneg (by linarith) hp.le, ?_, ?_⟩
      · rw [div_le_one hp]; linarith
      · rw [hmove]; exact m3
    · have hp : B - A < 0 := by linarith
      obtain ⟨m, m1, m2, m3⟩ := nearest hv h1 h2 h3
      refine ⟨(m - A) / (B - A), div_nonneg_of_nonpos (by linarith) hp.le, ?_, ?_⟩
      · rw [div_le_one_of_neg hp]; linarith
      · rw [hmove]; exact m3

/-- a column edge between the columns of two longitudes -/
theorem edge_col (M : MathLib) {a b : Pt} {zoom : ℕ} (hz : zoom ≤ 30) (ha : |a.1| ≤ 180) (hb : |b.1| ≤ 180) {v w : ℤ}
    (hv : (tile M a.1 a.2 zoom).X < v ∧ v < (tile M b.1 b.2 zoom).X) (hw : w = v ∨ w = v + 1) :
    (a.1 : ℝ) - 1 / 10 ^ 10 ≤ (w : ℝ) / 2 ^ zoom * 360 - 180 ∧ (w : ℝ) / 2 ^ zoom * 360 - 180 ≤ (b.1 : ℝ) + 1 / 10 ^ 10 ∧
      (1 : ℝ) / 10 ^ 8 ≤ (b.1 : ℝ) - a.1 ∧ 0 ≤ v ∧ v + 1 ≤ 2 ^ zoom := by
  have hE : eps = 1 / 1125899906842624 := by unfold eps; norm_num
  have toR : ∀ x : ℚ, |x| ≤ 180 → |(x : ℝ)| ≤ 181 := by
    intro x hx
    have : ((|x| : ℚ) : ℝ) ≤ 180 := by exact_mod_cast hx
    push_cast at this
    linarith
  have ca := (col_bounds M a.1 a.2 (toR _ ha) zoom).2
  have cb := (col_bounds M b.1 b.2 (toR _ hb) zoom).1
  have ra := (col_range M a.1 a.2 zoom (abs_le.mp ha).1 (abs_le.mp ha).2).1
  have rb := (col_range M b.1 b.2 zoom (abs_le.mp hb).1 (abs_le.mp hb).2).2
  generalize (tile M a.1 a.2 zoom).X = X at *
  generalize (tile M b.1 b.2 zoom).X = Y at *
  have hn : (0 : ℝ) < 2 ^ zoom := by positivity
  have hp : (2 : ℝ) ^ zoom ≤ 1073741824 := by
    have : (2 : ℝ) ^ zoom ≤ 2 ^ 30 := pow_le_pow_right₀ (by norm_num) hz
    norm_num at this; exact this
  have h1 : (X + 1 : ℝ) ≤ w := by
    have : X + 1 ≤ w := by omega
    exact_mod_cast this
  have h2 : (w : ℝ) ≤ Y := by
    have : w ≤ Y := by omega
    exact_mod_cast this
  have h3 : (X + 1 : ℝ) / 2 ^ zoom ≤ w / 2 ^ zoom := by gcongr
  have h4 : (w : ℝ) / 2 ^ zoom ≤ Y / 2 ^ zoom := by gcongr
  have h5 : (X + 1 : ℝ) / 2 ^ zoom + 1 / 1073741824 ≤ Y / 2 ^ zoom := by
    have : (X + 2 : ℝ) ≤ Y := by
      have : X + 2 ≤ Y := by omega
      exact_mod_cast this
    have a1 : (X + 1 : ℝ) / 2 ^ zoom + 1 / 2 ^ zoom ≤ Y / 2 ^ zoom := by
      rw [← add_div]; gcongr; linarith
    have a2 : (1 : ℝ) / 1073741824 ≤ 1 / 2 ^ zoom := one_div_le_one_div_of_le hn hp
    linarith
  rw [hE] at ca cb
  generalize (X + 1 : ℝ) / 2 ^ zoom = p at *
  generalize (w : ℝ) / 2 ^ zoom = q at *
  generalize (Y : ℝ) / 2 ^ zoom = r at *
  norm_num at ca cb h5 ⊢
  refine ⟨by linarith, by linarith, by linarith, by omega, by omega⟩

/-- latitudes up to 85 degrees are on the map, with a margin -/
theorem row_margin {lat : ℝ} (h : |lat| ≤ 85) : |L (lat * (Real.pi / 180))| ≤ 3137 / 1000 := by
  have hpi := Real.pi_pos
  have hpi1 := Real.pi_gt_d6
  have hpi2 := Real.pi_lt_d6
  set φ := lat * (Real.pi / 180) with hφ
  have hφ1 : |φ| ≤ Real.pi / 2 - 5 * (Real.pi / 180) := by
    rw [hφ, abs_mul, abs_of_pos (by positivity : 0 < Real.pi / 180)]
    have := mul_le_mul_of_nonneg_right h (by positivity : 0 ≤ Real.pi / 180)
    linarith
  have hc : 871 / 10000 ≤ Real.cos φ := by
    rw [← Real.cos_abs]
    have h1 : Real.cos (Real.pi / 2 - 5 * (Real.pi / 180)) ≤ Real.cos |φ| :=
      Real.cos_le_cos_of_nonneg_of_le_pi (abs_nonneg _) (by linarith) hφ1
    rw [Real.cos_pi_div_two_sub] at h1
    have hx0 : 0 < 5 * (Real.pi / 180) := by positivity
    have hx1 : 5 * (Real.pi / 180) ≤ 0.0872665 := by norm_num; linarith
    have hx2 : 0.0872664 ≤ 5 * (Real.pi / 180) := by norm_num; linarith
    have h2 := Real.sin_gt_sub_cube hx0
    generalize 5 * (Real.pi / 180) = x at *
    have h3 : x ^ 3 ≤ 0.0872665 ^ 3 := by gcongr
    refine le_trans ?_ h1
    norm_num at h3 hx2 ⊢
    linarith
  have hcp : 0 < Real.cos φ := by linarith
  have hs := Real.sin_sq_add_cos_sq φ
  have s1 := Real.sin_le_one φ
  have s2 := Real.neg_one_le_sin φ
  have hexp : (2 : ℝ) / (871 / 10000) ≤ Real.exp (3137 / 1000) := by
    have e1 := Real.exp_one_gt_d9
    have e2 : Real.exp (3137 / 1000) = Real.exp 1 ^ 3 * Real.exp (137 / 1000) := by
      rw [← Real.exp_nat_mul, ← Real.exp_add]; norm_num
    have e3 : (1 : ℝ) + 137 / 1000 + (137 / 1000) ^ 2 / 2 ≤ Real.exp (137 / 1000) := Real.quadratic_le_exp_of_nonneg (by norm_num)
    have e4 : (2.718 : ℝ) ^ 3 ≤ Real.exp 1 ^ 3 := by
      apply pow_le_pow_left₀ (by norm_num); linarith
    rw [e2]
    calc (2 : ℝ) / (871 / 10000) ≤ 2.718 ^ 3 * (1 + 137 / 1000 + (137 / 1000) ^ 2 / 2) := by norm_num
      _ ≤ _ := mul_le_mul e4 e3 (by positivity) (by positivity)
  have hA : 0 < Real.tan φ + 1 / Real.cos φ := by rw [arg_eq hcp]; exact div_pos (one_add_sin_pos hcp) hcp
  have hA2 : Real.tan φ + 1 / Real.cos φ ≤ Real.exp (3137 / 1000) := by
    refine le_trans ?_ hexp
    rw [arg_eq hcp]
    apply div_le_div₀ (by norm_num) (by linarith) (by norm_num) hc
  have hA1 : Real.exp (-(3137 / 1000)) ≤ Real.tan φ + 1 / Real.cos φ := by
    rw [Real.exp_neg]
    refine le_trans (inv_anti₀ (by norm_num) hexp) ?_
    rw [arg_eq hcp, inv_div, div_le_div_iff₀ (by norm_num) hcp]
    nlinarith
  unfold L
  rw [abs_le]
  constructor
  · rw [Real.le_log_iff_exp_le hA]; exact hA1
  · rw [Real.log_le_iff_le_exp hA]; exact hA2

/-- what the row of a latitude says of it -/
theorem row_bounds {M : MathLib} (hM : Accurate M) (x y : ℚ) (hy : |(y : ℝ)| ≤ 85) (zoom : ℕ) :
    ((tile M x y zoom).Y : ℝ) / 2 ^ zoom - 300 * eps ≤ Tid.rowf y ∧
    Tid.rowf (y : ℝ) < ((tile M x y zoom).Y + 1 : ℝ) / 2 ^ zoom + 300 * eps := by
  have c := row_near hM y (by linarith) zoom
  have e2 : (2 : ℝ) ^ (zoom : ℤ) = 2 ^ zoom := zpow_natCast _ _
  rw [e2] at c
  have hn : (0 : ℝ) < 2 ^ zoom := by positivity
  unfold tile
  simp only
  generalize rnd (rnd (rnd (1 - rnd (M.log (rnd (M.tan (rnd (y * rnd (piC / 180))) +
      rnd (1 / M.cos (rnd (y * rnd (piC / 180)))))) / rnd piC)) / 2) * 2 ^ (zoom : ℤ)) = q at c ⊢
  have h1 : ((⌊q⌋ : ℤ) : ℝ) ≤ q := by
    have := Int.floor_le q
    exact_mod_cast this
  have h2 : (q : ℝ) < (⌊q⌋ : ℤ) + 1 := by
    have := Int.lt_floor_add_one q
    exact_mod_cast this
  obtain ⟨c1, c2⟩ := abs_le.mp c
  constructor
  · rw [sub_le_iff_le_add, div_le_iff₀ hn]
    linarith
  · rw [← sub_lt_iff_lt_add, lt_div_iff₀ hn]
    linarith

/-- a difference of mercator ordinates bounds the difference of latitudes -/
theorem lat_of_L {x y e : ℝ} (hx : |x| ≤ 85.4) (hy : |y| ≤ 85.4) (h : L (y * (Real.pi / 180)) - Real.pi * e ≤ L (x * (Real.pi / 180))) (he : 0 ≤ e) :
    y ≤ x + 180 * e := by
  have hpi := Real.pi_pos
  have hpi2 := Real.pi_lt_d6
  have k0 : 0 < Real.pi / 180 := by positivity
  have k1 : Real.pi / 180 ≤ 3.141593 / 180 := by gcongr
  have dom : ∀ x : ℝ, |x| ≤ 85.4 → |x * (Real.pi / 180)| ≤ 1.4923 := by
    intro x hx
    rw [abs_mul, abs_of_pos k0]
    calc |x| * (Real.pi / 180) ≤ 85.4 * (3.141593 / 180) := by gcongr
      _ ≤ 1.4923 := by norm_num
  by_contra hc
  push Not at hc
  have hlt : x * (Real.pi / 180) < y * (Real.pi / 180) := mul_lt_mul_of_pos_right (by linarith) k0
  have m := (L_mono (dom x hx) (dom y hy) hlt).1
  have : (180 * e) * (Real.pi / 180) < (y - x) * (Real.pi / 180) := mul_lt_mul_of_pos_right (by linarith) k0
  linarith

/-- a row edge between the rows of two latitudes -/
theorem edge_row {M : MathLib} (hM : Accurate M) {a b : Pt} {zoom : ℕ} (hz : zoom ≤ 30) (ha : |(a.2 : ℝ)| ≤ 85) (hb : |(b.2 : ℝ)| ≤ 85) {v w : ℤ}
    (hv : (tile M a.1 a.2 zoom).Y < v ∧ v < (tile M b.1 b.2 zoom).Y) (hw : w = v ∨ w = v + 1) :
    (b.2 : ℝ) - 1 / 10 ^ 10 ≤ (Tid.ul ⟨0, w, zoom⟩).2 ∧ (Tid.ul ⟨0, w, zoom⟩).2 ≤ (a.2 : ℝ) + 1 / 10 ^ 10 ∧
      (1 : ℝ) / 10 ^ 8 ≤ (a.2 : ℝ) - b.2 ∧ 0 ≤ v ∧ v + 1 ≤ 2 ^ zoom := by
  have hE : eps = 1 / 1125899906842624 := by unfold eps; norm_num
  have hpi := Real.pi_pos
  have hpi1 := Real.pi_gt_d6
  have hpi2 := Real.pi_lt_d6
  obtain ⟨a1, a2⟩ := abs_le.mp ha
  obtain ⟨b1, b2⟩ := abs_le.mp hb
  have ca := (row_bounds hM a.1 a.2 ha zoom).2
  have cb := (row_bounds hM b.1 b.2 hb zoom).1
  rw [rowf_L (by linarith) (by linarith)] at ca cb
  have ma := (abs_le.mp (row_margin ha)).2
  have mb := (abs_le.mp (row_margin hb)).1
  have LaP : L ((a.2 : ℝ) * (Real.pi / 180)) = Real.pi * (L ((a.2 : ℝ) * (Real.pi / 180)) / Real.pi) := by field_simp
  have LbP : L ((b.2 : ℝ) * (Real.pi / 180)) = Real.pi * (L ((b.2 : ℝ) * (Real.pi / 180)) / Real.pi) := by field_simp
  have qa : L ((a.2 : ℝ) * (Real.pi / 180)) / Real.pi ≤ 999 / 1000 := by
    rw [div_le_iff₀ hpi]; linarith
  have qb : -(999 / 1000) ≤ L ((b.2 : ℝ) * (Real.pi / 180)) / Real.pi := by
    rw [le_div_iff₀ hpi]; linarith
  generalize hX : (tile M a.1 a.2 zoom).Y = X at *
  generalize hY : (tile M b.1 b.2 zoom).Y = Y at *
  have hn : (0 : ℝ) < 2 ^ zoom := by positivity
  have hp : (2 : ℝ) ^ zoom ≤ 1073741824 := by
    have : (2 : ℝ) ^ zoom ≤ 2 ^ 30 := pow_le_pow_right₀ (by norm_num) hz
    norm_num at this; exact this
  have h1 : (X + 1 : ℝ) ≤ w := by
    have : X + 1 ≤ w := by omega
    exact_mod_cast this
  have h2 : (w : ℝ) ≤ Y := by
    have : w ≤ Y := by omega
    exact_mod_cast this
  have h3 : (X + 1 : ℝ) / 2 ^ zoom ≤ w / 2 ^ zoom := by gcongr
  have h4 : (w : ℝ) / 2 ^ zoom ≤ Y / 2 ^ zoom := by gcongr
  have h5 : (X + 1 : ℝ) / 2 ^ zoom + 1 / 1073741824 ≤ Y / 2 ^ zoom := by
    have : (X + 2 : ℝ) ≤ Y := by
      have : X + 2 ≤ Y := by omega
      exact_mod_cast this
    have a1 : (X + 1 : ℝ) / 2 ^ zoom + 1 / 2 ^ zoom ≤ Y / 2 ^ zoom := by
      rw [← add_div]; gcongr; linarith
    have a2 : (1 : ℝ) / 1073741824 ≤ 1 / 2 ^ zoom := one_div_le_one_div_of_le hn hp
    linarith
  -- the rows are on the map
  have hX0 : 0 ≤ X := by
    have : (0 : ℝ) < (X + 1 : ℝ) / 2 ^ zoom := by
      rw [hE] at ca
      linarith
    have : (0 : ℝ) < (X + 1 : ℝ) := by
      have := mul_pos this hn
      rwa [div_mul_cancel₀ _ hn.ne'] at this
    have : (0 : ℤ) < X + 1 := by exact_mod_cast this
    omega
  have hY1 : Y ≤ 2 ^ zoom := by
    have : (Y : ℝ) / 2 ^ zoom ≤ 1 := by
      rw [hE] at cb
      linarith
    rw [div_le_one hn] at this
    exact_mod_cast this
  have hw0 : 0 ≤ w := by omega
  have hw1 : w ≤ 2 ^ zoom := by omega
  obtain ⟨la, lL⟩ := lat_abs (t := ⟨0, w, zoom⟩) ⟨le_refl _, by positivity, hw0, hw1, by simp only; omega⟩
  simp only at lL
  generalize (Tid.ul ⟨0, w, zoom⟩).2 = φ at la lL ⊢
  have lL' : L (φ * (Real.pi / 180)) = Real.pi * (1 - 2 * ((w : ℝ) / 2 ^ zoom)) := by rw [lL]; ring
  generalize (w : ℝ) / 2 ^ zoom = W at *
  generalize (X + 1 : ℝ) / 2 ^ zoom = p at *
  generalize (Y : ℝ) / 2 ^ zoom = r at *
  generalize hla : L ((a.2 : ℝ) * (Real.pi / 180)) / Real.pi = A at *
  generalize hlb : L ((b.2 : ℝ) * (Real.pi / 180)) / Real.pi = B at *
  refine ⟨?_, ?_, ?_, by omega, by omega⟩
  · have := lat_of_L (x := φ) (y := (b.2 : ℝ)) (e := 600 * eps) la (by linarith) (by
      rw [LbP, lL', ← mul_sub]
      apply mul_le_mul_of_nonneg_left _ hpi.le
      linarith) (by have := eps_pos; linarith)
    rw [hE] at this
    norm_num at this ⊢
    linarith
  · have := lat_of_L (x := (a.2 : ℝ)) (y := φ) (e := 600 * eps) (by linarith) la (by
      rw [LaP, lL', ← mul_sub]
      apply mul_le_mul_of_nonneg_left _ hpi.le
      linarith) (by have := eps_pos; linarith)
    rw [hE] at this
    norm_num at this ⊢
    linarith
  · have k0 : 0 < Real.pi / 180 := by positivity
    have k1 : Real.pi / 180 ≤ 3.141593 / 180 := by gcongr
    have dom : ∀ x : ℝ, |x| ≤ 85 → |x * (Real.pi / 180)| ≤ 1.4923 := by
      intro x hx
      rw [abs_mul, abs_of_pos k0]
      calc |x| * (Real.pi / 180) ≤ 85 * (3.141593 / 180) := by gcongr
        _ ≤ 1.4923 := by norm_num
    rw [hE] at ca cb
    have hAB : 1 / 10 ^ 9 ≤ A - B := by norm_num at h5 ca cb ⊢; linarith
    have l := L_lip (dom _ ha) (dom _ hb)
    rw [LaP, LbP, ← mul_sub, ← sub_mul, abs_mul, abs_of_pos hpi, abs_mul, abs_of_pos k0] at l
    have hAB' : 1 / 10 ^ 9 ≤ |A - B| := hAB.trans (le_abs_self _)
    have l1 : 1 / 10 ^ 8 ≤ |(a.2 : ℝ) - b.2| := by
      have e1 : Real.pi * |A - B| ≤ Real.pi * (13 / 180 * |(a.2 : ℝ) - b.2|) := by linarith
      have e2 := le_of_mul_le_mul_left e1 hpi
      norm_num at hAB' ⊢
      linarith
    have pos : (b.2 : ℝ) ≤ a.2 := by
      have := lat_of_L (x := (a.2 : ℝ)) (y := (b.2 : ℝ)) (e := 0) (by linarith) (by linarith) (by
        rw [LaP, LbP, mul_zero, sub_zero]
        apply mul_le_mul_of_nonneg_left _ hpi.le
        norm_num at hAB; linarith) le_rfl
      linarith
    rwa [abs_of_nonneg (by linarith)] at l1

/-- The point of the line through `a` and `b` at the parameter `s` (`a` at 0, `b` at 1). -/
noncomputable def lineAt (a b : Pt) (s : ℝ) : ℝ × ℝ := ((a.1 : ℝ) + s * (b.1 - a.1), (a.2 : ℝ) + s * (b.2 - a.2))

theorem interp_errR {a1 b1 a2 b2 v : ℚ} (h0 : (b1 : ℝ) - a1 ≠ 0) (hr : |(v : ℝ) - a1| ≤ 20 * |(b1 : ℝ) - a1|) (ha : |a2| ≤ 180) (hb : |b2| ≤ 180) :
    |((rnd (a2 + rnd (rnd (v - a1) * rnd (rnd (b2 - a2) / rnd (b1 - a1)))) : ℚ) : ℝ) - ((a2 : ℝ) + (v - a1) / (b1 - a1) * (b2 - a2))| ≤ 1 / 10 ^ 11 := by
  have h := interp_err (a1 := a1) (b1 := b1) (a2 := a2) (b2 := b2) (v := v) (by exact_mod_cast h0) (by exact_mod_cast hr) ha hb
  generalize rnd (a2 + rnd (rnd (v - a1) * rnd (rnd (b2 - a2) / rnd (b1 - a1)))) = q at *
  have h' : ((|q - (a2 + (v - a1) / (b1 - a1) * (b2 - a2))| : ℚ) : ℝ) ≤ ((1 / 10 ^ 11 : ℚ) : ℝ) := by exact_mod_cast h
  push_cast at h'
  exact h'

theorem i64_succ {v : ℤ} {zoom : ℕ} (hz : zoom ≤ 30) (h0 : 0 ≤ v) (h1 : v + 1 ≤ 2 ^ zoom) : i64 (v + 1) = v + 1 := by
  have hpz : (2 : ℤ) ^ zoom ≤ 2 ^ 30 := pow_le_pow_right₀ (by norm_num) hz
  norm_num at hpz
  exact Tid.i64_of_lt (by unfold IsI64; omega)

/-- **C90** In float64 every tile of the cover of a line is the tile of a vertex, or the tile of a point within 10^-11 degrees of a
point of the line through two consecutive vertices whose distance from the segment, measured along one of the axes, is at most
1.002·10^-7 degrees. -/
theorem C90_line_sound {M : MathLib} (hM : Accurate M) (ord : Nat → List TileID → List TileID) (ho : ∀ n l, (ord n l).Perm l) (line : List Pt)
    (zoom : Nat) (hz : zoom ≤ 30) (hl : ∀ p ∈ line, |p.1| ≤ 180 ∧ |p.2| ≤ 85) (r : List TileID)
    (h : getTilesLine M ord line zoom = some r) (t : TileID) (ht : t ∈ r) :
    (∃ q ∈ line, t = tile M q.1 q.2 zoom) ∨
    ∃ a b, (a, b) ∈ line.zip line.tail ∧ ∃ (q : Pt) (s k : ℝ), 0 ≤ k ∧ k ≤ 1 ∧ t = tile M q.1 q.2 zoom ∧
      |(q.1 : ℝ) - (lineAt a b s).1| ≤ 1 / 10 ^ 11 ∧ |(q.2 : ℝ) - (lineAt a b s).2| ≤ 1 / 10 ^ 11 ∧
      (|s - k| * |(b.1 : ℝ) - a.1| ≤ 1002 / 10 ^ 10 ∨ |s - k| * |(b.2 : ℝ) - a.2| ≤ 1002 / 10 ^ 10) := by
  have he := eps_pos
  cases line with
  | nil => simp [getTilesLine] at h
  | cons p rest =>
  simp only [getTilesLine, Option.some.injEq] at h
  rw [← h, lineLoop_mem _ _ ho] at ht
  rcases ht with ht | ⟨q, hq, e⟩ | ⟨⟨a, b⟩, hs, -, ht⟩
  · left; exact ⟨p, List.mem_cons_self, List.mem_singleton.1 ht⟩
  · left; exact ⟨q, List.mem_cons_of_mem _ hq, e⟩
  have hm := List.of_mem_zip hs
  simp only at ht
  rw [betweenTiles_mem] at ht
  obtain ⟨la1, la2⟩ := hl a hm.1
  obtain ⟨lb1, lb2⟩ := hl b (List.mem_cons_of_mem _ hm.2)
  have la2R : |(a.2 : ℝ)| ≤ 85 := by exact_mod_cast la2
  have lb2R : |(b.2 : ℝ)| ≤ 85 := by exact_mod_cast lb2
  rcases ht with e | e | ⟨-, ⟨val, hval, e⟩ | ⟨val, hval, e⟩⟩
  · left; exact ⟨a, hm.1, e⟩
  · left; exact ⟨b, List.mem_cons_of_mem _ hm.2, e⟩
  · right
    refine ⟨a, b, hs, ?_⟩
    unfold produceVals at hval
    simp only [if_true, List.mem_flatMap, List.mem_cons, List.not_mem_nil, or_false] at hval
    obtain ⟨v, hv, k, hk, hval⟩ := hval
    rw [fillVals_mem] at hv
    -- the column edge
    have edge : ∃ w : ℤ, (w = v ∨ w = v + 1) ∧ (0 ≤ v ∧ v + 1 ≤ 2 ^ zoom → k = (ul M ⟨w, 0, zoom⟩).1) := by
      rcases hk with rfl | rfl
      · exact ⟨v, .inl rfl, fun _ => rfl⟩
      · refine ⟨v + 1, .inr rfl, fun hg => ?_⟩
        unfold bounds
        simp only
        rw [i64_succ hz hg.1 hg.2]
        rfl
    obtain ⟨w, hw, hkw⟩ := edge
    have pos : ((a.1 : ℝ) - 1 / 10 ^ 10 ≤ (w : ℝ) / 2 ^ zoom * 360 - 180 ∧ (w : ℝ) / 2 ^ zoom * 360 - 180 ≤ (b.1 : ℝ) + 1 / 10 ^ 10 ∧ (a.1 : ℝ) < b.1 ∨
        (b.1 : ℝ) - 1 / 10 ^ 10 ≤ (w : ℝ) / 2 ^ zoom * 360 - 180 ∧ (w : ℝ) / 2 ^ zoom * 360 - 180 ≤ (a.1 : ℝ) + 1 / 10 ^ 10 ∧ (b.1 : ℝ) < a.1) ∧
        1 / 10 ^ 8 ≤ |(b.1 : ℝ) - a.1| ∧ 0 ≤ v ∧ v + 1 ≤ 2 ^ zoom := by
      have ten : (0 : ℝ) < 1 / 10 ^ 8 := by norm_num
      rcases hv with hv | hv
      · obtain ⟨e1, e2, e3, e4, e5⟩ := edge_col M hz la1 lb1 hv hw
        exact ⟨.inl ⟨e1, e2, by linarith⟩, e3.trans (le_abs_self _), e4, e5⟩
      · obtain ⟨e1, e2, e3, e4, e5⟩ := edge_col M hz lb1 la1 hv hw
        refine ⟨.inr ⟨e1, e2, by linarith⟩, ?_, e4, e5⟩
        rw [abs_sub_comm]
        exact e3.trans (le_abs_self _)
    obtain ⟨pos, far, v0, v1⟩ := pos
    have hk' := hkw ⟨v0, v1⟩
    obtain ⟨n1, n2⟩ := lon_near M (t := ⟨w, 0, zoom⟩) ⟨by simp only; omega, by simp only; omega, le_refl _, by positivity, by simp only; omega⟩
    rw [lon_eq, ← hk'] at n1
    rw [lon_eq] at n2
    obtain ⟨hr, k', k0, k1, hkk⟩ := sample_param (sample_edge (by linarith) n2 hval) pos far
    have hne : (b.1 : ℝ) - a.1 ≠ 0 := by
      intro h0; rw [h0, abs_zero] at far; norm_num at far
    refine ⟨interpolate a b val false, ((val : ℝ) - a.1) / (b.1 - a.1), k', k0, k1, e, ?_, ?_, .inl hkk⟩
    · unfold interpolate lineAt
      simp only [Bool.false_eq_true, if_false]
      rw [div_mul_cancel₀ _ hne, show (val : ℝ) - (a.1 + (val - a.1)) = 0 by ring, abs_zero]
      norm_num
    · unfold interpolate lineAt
      simp only [Bool.false_eq_true, if_false]
      exact interp_errR hne hr (by linarith) (by linarith)
  · right
    refine ⟨a, b, hs, ?_⟩
    unfold produceVals at hval
    simp only [Bool.false_eq_true, if_false, List.mem_flatMap, List.mem_cons, List.not_mem_nil, or_false] at hval
    obtain ⟨v, hv, k, hk, hval⟩ := hval
    rw [fillVals_mem] at hv
    have edge : ∃ w : ℤ, (w = v ∨ w = v + 1) ∧ (0 ≤ v ∧ v + 1 ≤ 2 ^ zoom → k = (ul M ⟨0, w, zoom⟩).2) := by
      rcases hk with rfl | rfl
      · refine ⟨v + 1, .inr rfl, fun hg => ?_⟩
        unfold bounds
        simp only
        rw [i64_succ hz hg.1 hg.2]
        rfl
      · exact ⟨v, .inl rfl, fun _ => rfl⟩
    obtain ⟨w, hw, hkw⟩ := edge
    have pos : ((a.2 : ℝ) - 1 / 10 ^ 10 ≤ (Tid.ul ⟨0, w, zoom⟩).2 ∧ (Tid.ul ⟨0, w, zoom⟩).2 ≤ (b.2 : ℝ) + 1 / 10 ^ 10 ∧ (a.2 : ℝ) < b.2 ∨
        (b.2 : ℝ) - 1 / 10 ^ 10 ≤ (Tid.ul ⟨0, w, zoom⟩).2 ∧ (Tid.ul ⟨0, w, zoom⟩).2 ≤ (a.2 : ℝ) + 1 / 10 ^ 10 ∧ (b.2 : ℝ) < a.2) ∧
        1 / 10 ^ 8 ≤ |(b.2 : ℝ) - a.2| ∧ 0 ≤ v ∧ v + 1 ≤ 2 ^ zoom := by
      have ten : (0 : ℝ) < 1 / 10 ^ 8 := by norm_num
      rcases hv with hv | hv
      · obtain ⟨e1, e2, e3, e4, e5⟩ := edge_row hM hz la2R lb2R hv hw
        refine ⟨.inr ⟨e1, e2, by linarith⟩, ?_, e4, e5⟩
        rw [abs_sub_comm]
        exact e3.trans (le_abs_self _)
      · obtain ⟨e1, e2, e3, e4, e5⟩ := edge_row hM hz lb2R la2R hv hw
        exact ⟨.inl ⟨e1, e2, by linarith⟩, e3.trans (le_abs_self _), e4, e5⟩
    obtain ⟨pos, far, v0, v1⟩ := pos
    have hk' := hkw ⟨v0, v1⟩
    have hsm : Small ⟨0, w, zoom⟩ := ⟨le_refl _, by positivity, by simp only; omega, by simp only; omega, by simp only; omega⟩
    have n1 := lat_near hM hsm
    have n2 := (lat_abs hsm).1
    rw [← hk'] at n1
    obtain ⟨hr, k', k0, k1, hkk⟩ := sample_param (sample_edge n1 (by linarith) hval) pos far
    have hne : (b.2 : ℝ) - a.2 ≠ 0 := by
      intro h0; rw [h0, abs_zero] at far; norm_num at far
    refine ⟨interpolate a b val true, ((val : ℝ) - a.2) / (b.2 - a.2), k', k0, k1, e, ?_, ?_, .inr hkk⟩
    · unfold interpolate lineAt
      simp only [if_true]
      exact interp_errR hne hr la1 lb1
    · unfold interpolate lineAt
      simp only [if_true]
      rw [div_mul_cancel₀ _ hne, show (val : ℝ) - (a.2 + (val - a.2)) = 0 by ring, abs_zero]
      norm_num

/-- a case that meets the hypotheses: the cover of a line along the tenth parallel has a tile of no vertex, so there is a point
near the line in it -/
theorem C90_line_sound_example {M : MathLib} (hM : Accurate M) (ord : Nat → List TileID → List TileID) (ho : ∀ n l, (ord n l).Perm l) :
    ∃ (q : Pt) (s : ℝ), tile M 1 10 (2 : Nat) = tile M q.1 q.2 (2 : Nat) ∧ |(q.1 : ℝ) - (-100 + s * 200)| ≤ 1 / 10 ^ 11 ∧
      |(q.2 : ℝ) - 10| ≤ 1 / 10 ^ 11 := by
  obtain ⟨r, hr, h1, -, h2, h3⟩ := C90_flat_example M ord ho
  rcases C90_line_sound hM ord ho _ 2 (by norm_num) (by
    intro p hp
    simp only [List.mem_cons, List.not_mem_nil, or_false] at hp
    rcases hp with rfl | rfl <;> norm_num [abs_le]) r hr _ h1 with ⟨q, hq, e⟩ | ⟨a, b, hab, q, s, k, -, -, e, e1, e2, -⟩
  · simp only [List.mem_cons, List.not_mem_nil, or_false] at hq
    rcases hq with rfl | rfl
    · exact absurd e h2
    · exact absurd e h3
  · simp only [List.tail_cons, List.zip_cons_cons, List.zip_nil_right, List.mem_singleton, Prod.mk.injEq] at hab
    obtain ⟨rfl, rfl⟩ := hab
    refine ⟨q, s, e, ?_, ?_⟩
    · simp only [lineAt] at e1
      norm_num at e1 ⊢
      exact e1
    · simp only [lineAt] at e2
      norm_num at e2 ⊢
      exact e2

end Verif.CoverF
