import Verif.Model.MvtReduceFloat
import Verif.Props.MvtReduce
import Verif.Props.MvtClipFloat

/-! # C91: simplification and thinning in float64 -/
namespace Verif.Reduce
open Verif.F64 Verif.Clip

theorem one_val : (1 : Dbl).val = 1 := rfl
theorem zero_val : (0 : Dbl).val = 0 := rfl
theorem add_val (a b : Dbl) : (a + b).val = rnd (a.val + b.val) := rfl
theorem sub_val (a b : Dbl) : (a - b).val = rnd (a.val - b.val) := rfl
theorem mul_val (a b : Dbl) : (a * b).val = rnd (a.val * b.val) := rfl
theorem div_val (a b : Dbl) : (a / b).val = rnd (a.val / b.val) := rfl
theorem lt_val (a b : Dbl) : a < b ↔ a.val < b.val := Iff.rfl
theorem le_val (a b : Dbl) : a ≤ b ↔ a.val ≤ b.val := Iff.rfl
theorem eq_val (a b : Dbl) : a = b ↔ a.val = b.val := ⟨fun h => by rw [h], fun h => Dbl.val_injective h⟩

/-- the unit of rounding -/
def uu : ℚ := 1 / 2 ^ 53

theorem uu_pos : 0 < uu := by unfold uu; norm_num
theorem uu_small : uu ≤ 1 / 1000000 := by unfold uu; norm_num

theorem rel (x : ℚ) : ∃ d : ℚ, |d| ≤ uu ∧ rnd x = x * (1 + d) := rnd_rel x

theorem rerr (x : ℚ) : |rnd x - x| ≤ uu * |x| := by
  have := rnd_err x
  unfold uu
  linarith

/-- rounding of a number known up to an error -/
theorem rnd_near' {x y e B : ℚ} (h : |x - y| ≤ e) (hB : |x| ≤ B) : |rnd x - y| ≤ e + uu * B := by
  have h1 := rerr x
  have h2 := abs_sub_le (rnd x) x y
  have h3 : uu * |x| ≤ uu * B := mul_le_mul_of_nonneg_left hB uu_pos.le
  linarith

/-- product of two perturbed numbers -/
theorem mul_near {x y x' y' e f X Y : ℚ} (hx : |x' - x| ≤ e) (hy : |y' - y| ≤ f) (hX : |x| ≤ X) (hY : |y'| ≤ Y) :
    |x' * y' - x * y| ≤ e * Y + X * f := by
  have e1 : x' * y' - x * y = (x' - x) * y' + x * (y' - y) := by ring
  rw [e1]
  exact (abs_add_le _ _).trans (add_le_add (abs_mul_le hx hY) (abs_mul_le hX hy))


/-- relative error of at most `a` units -/
def RelE (a x' x : ℚ) : Prop := |x' - x| ≤ a * uu * |x|

theorem RelE.abs_le {a x' x : ℚ} (h : RelE a x' x) (ha : a ≤ 1000) : |x'| ≤ 1001 / 1000 * |x| := by
  have h1 := abs_sub_abs_le_abs_sub x' x
  unfold RelE at h
  have h2 : a * uu ≤ 1 / 1000 := by
    have := mul_le_mul ha uu_small uu_pos.le (by norm_num)
    linarith
  have h3 := mul_le_mul_of_nonneg_right h2 (abs_nonneg x)
  linarith

theorem relE_rnd (x : ℚ) : RelE 1 (rnd x) x := by
  have := rerr x
  unfold RelE
  linarith

theorem RelE.rnd {a x' x : ℚ} (h : RelE a x' x) (ha : a ≤ 1000) : RelE (a + 1001 / 1000) (rnd x') x := by
  have h1 := h.abs_le ha
  have h2 := rnd_near' h h1
  unfold RelE
  refine h2.trans (le_of_eq ?_)
  ring

theorem RelE.mul {a b x' x y' y : ℚ} (hx : RelE a x' x) (hy : RelE b y' y) (ha : 0 ≤ a) (hb : b ≤ 1000) :
    RelE (1001 / 1000 * a + b) (x' * y') (x * y) := by
  have h1 := hy.abs_le hb
  have h2 := mul_near hx hy le_rfl h1
  unfold RelE
  refine h2.trans (le_of_eq ?_)
  rw [abs_mul]
  ring

theorem RelE.weaken {a b x' x : ℚ} (h : RelE a x' x) (hab : a ≤ b) : RelE b x' x := by
  unfold RelE at h ⊢
  have := mul_le_mul_of_nonneg_right (mul_le_mul_of_nonneg_right hab uu_pos.le) (abs_nonneg x)
  linarith

/-- the sum of the squares of two differences -/
theorem sumsq_err (x y : ℚ) : RelE (41 / 10) (F64.rnd (F64.rnd (F64.rnd x * F64.rnd x) + F64.rnd (F64.rnd y * F64.rnd y))) (x * x + y * y) := by
  have hx := (((relE_rnd x).mul (relE_rnd x) (by norm_num) (by norm_num)).rnd (by norm_num)).weaken (show _ ≤ (303 / 100 : ℚ) by norm_num)
  have hy := (((relE_rnd y).mul (relE_rnd y) (by norm_num) (by norm_num)).rnd (by norm_num)).weaken (show _ ≤ (303 / 100 : ℚ) by norm_num)
  have hs : RelE (303 / 100) (F64.rnd (F64.rnd x * F64.rnd x) + F64.rnd (F64.rnd y * F64.rnd y)) (x * x + y * y) := by
    unfold RelE at hx hy ⊢
    generalize F64.rnd (F64.rnd x * F64.rnd x) = A at *
    generalize F64.rnd (F64.rnd y * F64.rnd y) = B at *
    have nx := mul_self_nonneg x
    have ny := mul_self_nonneg y
    rw [abs_of_nonneg nx] at hx
    rw [abs_of_nonneg ny] at hy
    rw [abs_of_nonneg (add_nonneg nx ny)]
    have e : A + B - (x * x + y * y) = (A - x * x) + (B - y * y) := by ring
    rw [e]
    refine (abs_add_le _ _).trans ?_
    linarith
  exact (hs.rnd (by norm_num)).weaken (by norm_num)

/-- the scalar product of two differences -/
theorem dot_err (p d q f : ℚ) :
    |F64.rnd (F64.rnd (F64.rnd p * F64.rnd d) + F64.rnd (F64.rnd q * F64.rnd f)) - (p * d + q * f)| ≤ 41 / 10 * uu * (|p * d| + |q * f|) := by
  have hx := (((relE_rnd p).mul (relE_rnd d) (by norm_num) (by norm_num)).rnd (by norm_num)).weaken (show _ ≤ (303 / 100 : ℚ) by norm_num)
  have hy := (((relE_rnd q).mul (relE_rnd f) (by norm_num) (by norm_num)).rnd (by norm_num)).weaken (show _ ≤ (303 / 100 : ℚ) by norm_num)
  have bx := hx.abs_le (by norm_num)
  have bY := hy.abs_le (by norm_num)
  unfold RelE at hx hy
  generalize F64.rnd (F64.rnd p * F64.rnd d) = A at *
  generalize F64.rnd (F64.rnd q * F64.rnd f) = B at *
  generalize p * d = x at *
  generalize q * f = y at *
  have hs : |A + B - (x + y)| ≤ 303 / 100 * uu * (|x| + |y|) := by
    have e : A + B - (x + y) = (A - x) + (B - y) := by ring
    rw [e]
    refine (abs_add_le _ _).trans ?_
    linarith
  have hb : |A + B| ≤ 1001 / 1000 * (|x| + |y|) := (abs_add_le _ _).trans (by linarith)
  refine (rnd_near' hs hb).trans ?_
  have := mul_nonneg uu_pos.le (add_nonneg (abs_nonneg x) (abs_nonneg y))
  linarith

/-- quotient of two perturbed numbers; `S` bounds the numerator -/
theorem quot_err {n' n d' d S : ℚ} (hd : 0 < d) (hn : |n' - n| ≤ 41 / 10 * uu * S) (hnS : |n| ≤ S) (hd' : RelE (41 / 10) d' d) :
    |F64.rnd (n' / d') - n / d| * d ≤ 10 * uu * S := by
  have hS : 0 ≤ S := (abs_nonneg _).trans hnS
  have hu := uu_pos
  have hus := uu_small
  have huS : uu * S ≤ 1 / 1000000 * S := mul_le_mul_of_nonneg_right hus hS
  unfold RelE at hd'
  rw [abs_of_pos hd] at hd'
  have hud : uu * d ≤ 1 / 1000000 * d := mul_le_mul_of_nonneg_right hus hd.le
  have hdd := abs_le.mp hd'
  have hd'pos : 99 / 100 * d ≤ d' := by linarith [hdd.1]
  have hp : 0 < d' := by linarith
  have hn'S : |n'| ≤ 1001 / 1000 * S := by
    have := abs_sub_abs_le_abs_sub n' n
    linarith
  set q := n' / d' with hq
  have hqd : |q| * d' = |n'| := by rw [hq, abs_div, abs_of_pos hp]; field_simp
  have hqS : |q| * d ≤ 103 / 100 * S := by
    have := mul_le_mul_of_nonneg_left hd'pos (abs_nonneg q)
    linarith
  have e : (q - n / d) * d = (n' - n) - q * (d' - d) := by
    have h1 : q * d' = n' := by rw [hq]; field_simp
    have h2 : n / d * d = n := by field_simp
    linear_combination -h1 - h2 + 2 * h1
  have h1 : |q - n / d| * d ≤ 41 / 10 * uu * S + |q| * (41 / 10 * uu * d) := by
    rw [← abs_of_pos hd, ← abs_mul, abs_of_pos hd, e]
    refine (abs_sub _ _).trans (add_le_add hn ?_)
    rw [abs_mul]
    exact mul_le_mul_of_nonneg_left hd' (abs_nonneg _)
  have h2 := rerr q
  have h3 := abs_sub_le (F64.rnd q) q (n / d)
  have h4 : |F64.rnd q - n / d| * d ≤ (uu * |q| + |q - n / d|) * d := mul_le_mul_of_nonneg_right (by linarith) hd.le
  have h5 : uu * (|q| * d) ≤ uu * (103 / 100 * S) := mul_le_mul_of_nonneg_left hqS hu.le
  have huS' : 0 ≤ uu * S := mul_nonneg hu.le hS
  nlinarith

/-- the parameter forced into the segment -/
def cl (t : ℚ) : ℚ := if t > 1 then 1 else if t > 0 then t else 0

theorem cl_range (t : ℚ) : 0 ≤ cl t ∧ cl t ≤ 1 := by
  unfold cl
  split
  · norm_num
  · split
    · constructor <;> linarith
    · norm_num

theorem cl_lip (s t : ℚ) : |cl s - cl t| ≤ |s - t| := by
  unfold cl
  rw [abs_le]
  have h1 := neg_abs_le (s - t)
  have h2 := le_abs_self (s - t)
  have h3 := abs_nonneg (s - t)
  constructor <;> split_ifs <;> linarith

/-- how far the foot of the perpendicular moves when the parameter does -/
theorem foot_move {p q dx dy t t' : ℚ} (hd : 0 < dx * dx + dy * dy)
    (h : |t' - t| * (dx * dx + dy * dy) ≤ 10 * uu * (|p * dx| + |q * dy|)) :
    |dx| * |t' - t| ≤ 10 * uu * (|p| + |q|) ∧ |dy| * |t' - t| ≤ 10 * uu * (|p| + |q|) := by
  have hx : |dx| * |dx| = dx * dx := abs_mul_abs_self dx
  have hy : |dy| * |dy| = dy * dy := abs_mul_abs_self dy
  rw [abs_mul, abs_mul] at h
  have nx := abs_nonneg dx
  have ny := abs_nonneg dy
  have np := abs_nonneg p
  have nq := abs_nonneg q
  generalize |dx| = X at *
  generalize |dy| = Y at *
  generalize |p| = P at *
  generalize |q| = Q at *
  generalize |t' - t| = D at *
  rw [← hx, ← hy] at h hd
  have hXY : X * Y ≤ X * X + Y * Y := by nlinarith [mul_self_nonneg (X - Y)]
  have hu := uu_pos
  constructor
  · refine le_of_mul_le_mul_right ?_ hd
    have h1 := mul_le_mul_of_nonneg_left h nx
    have h2 : (P * X + Q * Y) * X ≤ (P + Q) * (X * X + Y * Y) := by
      have a := mul_le_mul_of_nonneg_left (show X * X ≤ X * X + Y * Y by nlinarith [mul_self_nonneg Y]) np
      have b := mul_le_mul_of_nonneg_left hXY nq
      nlinarith
    have h3 := mul_le_mul_of_nonneg_left h2 (show (0:ℚ) ≤ 10 * uu by linarith)
    linarith
  · refine le_of_mul_le_mul_right ?_ hd
    have h1 := mul_le_mul_of_nonneg_left h ny
    have h2 : (P * X + Q * Y) * Y ≤ (P + Q) * (X * X + Y * Y) := by
      have a := mul_le_mul_of_nonneg_left (show Y * Y ≤ X * X + Y * Y by nlinarith [mul_self_nonneg X]) nq
      have b := mul_le_mul_of_nonneg_left hXY np
      nlinarith
    have h3 := mul_le_mul_of_nonneg_left h2 (show (0:ℚ) ≤ 10 * uu by linarith)
    linarith

/-- the computed point at the parameter `t'` in (0, 1] -/
theorem along_err {a b t M : ℚ} (ha : |a| ≤ M) (hb : |b| ≤ M) (h0 : 0 ≤ t) (h1 : t ≤ 1) :
    |F64.rnd (a + F64.rnd (F64.rnd (b - a) * t)) - (a + (b - a) * t)| ≤ 8 * uu * M := by
  have hM : 0 ≤ M := (abs_nonneg _).trans ha
  have hu := uu_pos
  have huM : uu * M ≤ 1 / 1000000 * M := mul_le_mul_of_nonneg_right uu_small hM
  have hd : |b - a| ≤ 2 * M := (abs_sub _ _).trans (by linarith)
  have hdt : |(b - a) * t| ≤ 2 * M * 1 := abs_mul_le hd (by rw [abs_of_nonneg h0]; exact h1)
  have e1 := rerr (b - a)
  have e1' : |F64.rnd (b - a) - (b - a)| ≤ 2 * uu * M := by
    have := mul_le_mul_of_nonneg_left hd hu.le
    linarith
  have e2 : |F64.rnd (b - a) * t - (b - a) * t| ≤ 2 * uu * M := by
    rw [← sub_mul, abs_mul, abs_of_nonneg h0]
    have := mul_le_mul e1' h1 h0 (by positivity)
    linarith
  have b2 : |F64.rnd (b - a) * t| ≤ 201 / 100 * M := by
    have := abs_sub_abs_le_abs_sub (F64.rnd (b - a) * t) ((b - a) * t)
    linarith
  have e3 := rnd_near' e2 b2
  generalize F64.rnd (F64.rnd (b - a) * t) = R at *
  generalize (b - a) * t = w at *
  have b3 : |a + R| ≤ 302 / 100 * M := by
    have := abs_sub_abs_le_abs_sub R w
    have := abs_add_le a R
    linarith
  have e4 : |a + R - (a + w)| ≤ 2 * uu * M + uu * (201 / 100 * M) := by
    rw [add_sub_add_left_eq_sub]; exact e3
  refine (rnd_near' e4 b3).trans ?_
  have : 0 ≤ uu * M := mul_nonneg hu.le hM
  linarith

/-- the square of a perturbed difference -/
theorem diffsq_err {p c c' M : ℚ} (hp : |p| ≤ M) (hc : |c| ≤ M) (h : |c' - c| ≤ 48 * uu * M) :
    |F64.rnd (F64.rnd (p - c') * F64.rnd (p - c')) - (p - c) * (p - c)| ≤ 206 * uu * (M * M) ∧
      |F64.rnd (F64.rnd (p - c') * F64.rnd (p - c'))| ≤ 41 / 10 * (M * M) := by
  have hM : 0 ≤ M := (abs_nonneg _).trans hp
  have hu := uu_pos
  have huM : uu * M ≤ 1 / 1000000 * M := mul_le_mul_of_nonneg_right uu_small hM
  have hd : |p - c| ≤ 2 * M := (abs_sub _ _).trans (by linarith)
  have e1 : |p - c' - (p - c)| ≤ 48 * uu * M := by
    rw [sub_sub_sub_cancel_left, abs_sub_comm]; exact h
  have b1 : |p - c'| ≤ 2001 / 1000 * M := by
    have := abs_sub_abs_le_abs_sub (p - c') (p - c)
    linarith
  have e2 := rnd_near' e1 b1
  generalize F64.rnd (p - c') = x at *
  generalize p - c = y at *
  have b2 : |x| ≤ 2002 / 1000 * M := by
    have := abs_sub_abs_le_abs_sub x y
    linarith
  have e3 := mul_near e2 e2 hd b2
  have b3 := abs_mul_le b2 b2
  have huMM : 0 ≤ uu * (M * M) := mul_nonneg hu.le (mul_nonneg hM hM)
  have e4 : |x * x - y * y| ≤ 201 * uu * (M * M) := by
    refine e3.trans ?_
    nlinarith
  have e5 := rnd_near' e4 b3
  have huMM' : uu * (M * M) ≤ 1 / 1000000 * (M * M) := mul_le_mul_of_nonneg_right uu_small (mul_nonneg hM hM)
  have f1 : |F64.rnd (x * x) - y * y| ≤ 206 * uu * (M * M) := by
    refine e5.trans ?_
    nlinarith
  refine ⟨f1, ?_⟩
  have b4 := abs_mul_le hd hd
  have := abs_sub_abs_le_abs_sub (F64.rnd (x * x)) (y * y)
  nlinarith [mul_nonneg hM hM]

theorem sum_err {A B x y M : ℚ} (hA : |A - x| ≤ 206 * uu * (M * M) ∧ |A| ≤ 41 / 10 * (M * M))
    (hB : |B - y| ≤ 206 * uu * (M * M) ∧ |B| ≤ 41 / 10 * (M * M)) : |F64.rnd (A + B) - (x + y)| ≤ M * M / 2 ^ 44 := by
  have e : |A + B - (x + y)| ≤ 412 * uu * (M * M) := by
    have e : A + B - (x + y) = (A - x) + (B - y) := by ring
    rw [e]
    exact (abs_add_le _ _).trans (by linarith [hA.1, hB.1])
  have b : |A + B| ≤ 82 / 10 * (M * M) := (abs_add_le _ _).trans (by linarith [hA.2, hB.2])
  refine (rnd_near' e b).trans ?_
  have : 0 ≤ M * M := mul_self_nonneg M
  unfold uu
  norm_num
  linarith

/-- the squared distance from `p` to the point `c` of `a b` at the parameter in [0, 1] -/
theorem seg_exact (p a b : ℚ × ℚ) :
    sqSegDist p a b =
      (let t := if b.1 - a.1 ≠ 0 ∨ b.2 - a.2 ≠ 0 then
          cl (((p.1 - a.1) * (b.1 - a.1) + (p.2 - a.2) * (b.2 - a.2)) / ((b.1 - a.1) * (b.1 - a.1) + (b.2 - a.2) * (b.2 - a.2))) else 0
       (p.1 - (a.1 + (b.1 - a.1) * t)) * (p.1 - (a.1 + (b.1 - a.1) * t)) +
       (p.2 - (a.2 + (b.2 - a.2) * t)) * (p.2 - (a.2 + (b.2 - a.2) * t))) := by
  unfold sqSegDist cl
  simp only
  split_ifs <;> simp

theorem conv_abs {a b t M : ℚ} (ha : |a| ≤ M) (hb : |b| ≤ M) (h0 : 0 ≤ t) (h1 : t ≤ 1) : |a + (b - a) * t| ≤ M := by
  have a' := abs_le.mp ha
  have b' := abs_le.mp hb
  rw [abs_le]
  constructor
  · nlinarith [mul_le_mul_of_nonneg_left a'.1 (show 0 ≤ 1 - t by linarith), mul_le_mul_of_nonneg_left b'.1 h0]
  · nlinarith [mul_le_mul_of_nonneg_left a'.2 (show 0 ≤ 1 - t by linarith), mul_le_mul_of_nonneg_left b'.2 h0]

/-- the parameter as computed -/
def tF (p a b : ℚ × ℚ) : ℚ :=
  F64.rnd (F64.rnd (F64.rnd (F64.rnd (p.1 - a.1) * F64.rnd (b.1 - a.1)) + F64.rnd (F64.rnd (p.2 - a.2) * F64.rnd (b.2 - a.2))) /
    F64.rnd (F64.rnd (F64.rnd (b.1 - a.1) * F64.rnd (b.1 - a.1)) + F64.rnd (F64.rnd (b.2 - a.2) * F64.rnd (b.2 - a.2))))

/-- the point of the segment as computed -/
def footF (p a b : ℚ × ℚ) : ℚ × ℚ :=
  if b.1 - a.1 ≠ 0 ∨ b.2 - a.2 ≠ 0 then
    if tF p a b > 1 then b
    else if tF p a b > 0 then
      (F64.rnd (a.1 + F64.rnd (F64.rnd (b.1 - a.1) * tF p a b)), F64.rnd (a.2 + F64.rnd (F64.rnd (b.2 - a.2) * tF p a b)))
    else a
  else a

theorem sqSegDist_val (p a b : Dbl × Dbl) :
    (sqSegDist p a b).val =
      F64.rnd (F64.rnd (F64.rnd (p.1.val - (footF (Dbl.pt p) (Dbl.pt a) (Dbl.pt b)).1) * F64.rnd (p.1.val - (footF (Dbl.pt p) (Dbl.pt a) (Dbl.pt b)).1)) +
        F64.rnd (F64.rnd (p.2.val - (footF (Dbl.pt p) (Dbl.pt a) (Dbl.pt b)).2) * F64.rnd (p.2.val - (footF (Dbl.pt p) (Dbl.pt a) (Dbl.pt b)).2))) := by
  unfold sqSegDist footF tF Dbl.pt
  simp only [ne_eq, eq_val, sub_val, zero_val, rnd_eq_zero, gt_iff_lt, lt_val, one_val, div_val, add_val, mul_val]
  split_ifs <;> rfl

/-- the parameter and the point on the segment -/
theorem foot_err (p a b : ℚ × ℚ) (M : ℚ) (hp : Small M p) (ha : Small M a) (hb : Small M b) :
    ∃ t, 0 ≤ t ∧ t ≤ 1 ∧
      t = (if b.1 - a.1 ≠ 0 ∨ b.2 - a.2 ≠ 0 then
          cl (((p.1 - a.1) * (b.1 - a.1) + (p.2 - a.2) * (b.2 - a.2)) / ((b.1 - a.1) * (b.1 - a.1) + (b.2 - a.2) * (b.2 - a.2))) else 0) ∧
      |(footF p a b).1 - (a.1 + (b.1 - a.1) * t)| ≤ 48 * uu * M ∧ |(footF p a b).2 - (a.2 + (b.2 - a.2) * t)| ≤ 48 * uu * M := by
  have hM : 0 ≤ M := (abs_nonneg _).trans hp.1
  have huM : 0 ≤ uu * M := mul_nonneg uu_pos.le hM
  refine ⟨_, ?_, ?_, rfl, ?_⟩
  · split_ifs
    · exact (cl_range _).1
    · exact le_rfl
  · split_ifs
    · exact (cl_range _).2
    · norm_num
  by_cases hne : b.1 - a.1 ≠ 0 ∨ b.2 - a.2 ≠ 0
  · rw [if_pos hne]
    have hd : 0 < (b.1 - a.1) * (b.1 - a.1) + (b.2 - a.2) * (b.2 - a.2) := by
      rcases hne with h | h
      · have := mul_self_pos.2 h; linarith [mul_self_nonneg (b.2 - a.2)]
      · have := mul_self_pos.2 h; linarith [mul_self_nonneg (b.1 - a.1)]
    have hq := quot_err hd (dot_err (p.1 - a.1) (b.1 - a.1) (p.2 - a.2) (b.2 - a.2)) (abs_add_le _ _) (sumsq_err (b.1 - a.1) (b.2 - a.2))
    have hm := foot_move hd hq
    have hP : |p.1 - a.1| + |p.2 - a.2| ≤ 4 * M := by
      have h1 := abs_sub p.1 a.1
      have h2 := abs_sub p.2 a.2
      linarith [hp.1, hp.2, ha.1, ha.2]
    have hP' : 10 * uu * (|p.1 - a.1| + |p.2 - a.2|) ≤ 40 * uu * M := by
      have := mul_le_mul_of_nonneg_left hP uu_pos.le
      linarith
    change |b.1 - a.1| * |tF p a b - _| ≤ _ ∧ |b.2 - a.2| * |tF p a b - _| ≤ _ at hm
    generalize ((p.1 - a.1) * (b.1 - a.1) + (p.2 - a.2) * (b.2 - a.2)) / ((b.1 - a.1) * (b.1 - a.1) + (b.2 - a.2) * (b.2 - a.2)) = t at hm ⊢
    have move : ∀ d : ℚ, |d| * |tF p a b - t| ≤ 10 * uu * (|p.1 - a.1| + |p.2 - a.2|) → |d * cl (tF p a b) - d * cl t| ≤ 40 * uu * M := by
      intro d h
      rw [← mul_sub, abs_mul]
      have := mul_le_mul_of_nonneg_left (cl_lip (tF p a b) t) (abs_nonneg d)
      linarith
    have m1 := move _ hm.1
    have m2 := move _ hm.2
    have key : |(footF p a b).1 - (a.1 + (b.1 - a.1) * cl (tF p a b))| ≤ 8 * uu * M ∧
        |(footF p a b).2 - (a.2 + (b.2 - a.2) * cl (tF p a b))| ≤ 8 * uu * M := by
      have z : (0 : ℚ) ≤ 8 * uu * M := by linarith
      unfold footF cl
      rw [if_pos hne]
      split_ifs with h1 h2
      · constructor
        · rw [show b.1 - (a.1 + (b.1 - a.1) * 1) = 0 by ring, abs_zero]; exact z
        · rw [show b.2 - (a.2 + (b.2 - a.2) * 1) = 0 by ring, abs_zero]; exact z
      · exact ⟨along_err ha.1 hb.1 h2.le (not_lt.1 h1), along_err ha.2 hb.2 h2.le (not_lt.1 h1)⟩
      · constructor
        · rw [show a.1 - (a.1 + (b.1 - a.1) * 0) = 0 by ring, abs_zero]; exact z
        · rw [show a.2 - (a.2 + (b.2 - a.2) * 0) = 0 by ring, abs_zero]; exact z
    constructor
    · have := abs_sub_le (footF p a b).1 (a.1 + (b.1 - a.1) * cl (tF p a b)) (a.1 + (b.1 - a.1) * cl t)
      rw [add_sub_add_left_eq_sub] at this
      linarith [key.1]
    · have := abs_sub_le (footF p a b).2 (a.2 + (b.2 - a.2) * cl (tF p a b)) (a.2 + (b.2 - a.2) * cl t)
      rw [add_sub_add_left_eq_sub] at this
      linarith [key.2]
  · rw [if_neg hne]
    have z : (0 : ℚ) ≤ 48 * uu * M := by linarith
    unfold footF
    rw [if_neg hne]
    constructor
    · rw [mul_zero, add_zero, sub_self, abs_zero]; exact z
    · rw [mul_zero, add_zero, sub_self, abs_zero]; exact z

/-- **C91** The squared distance `GetSqSegDist` computes in float64 differs from the exact one by at most `M²/2^44`, where `M` bounds
the coordinates. -/
theorem C91_distance (p a b : Dbl × Dbl) (M : ℚ) (hp : Small M (Dbl.pt p)) (ha : Small M (Dbl.pt a)) (hb : Small M (Dbl.pt b)) :
    |(sqSegDist p a b).val - sqSegDist (Dbl.pt p) (Dbl.pt a) (Dbl.pt b)| ≤ M * M / 2 ^ 44 := by
  obtain ⟨t, t0, t1, ht, e1, e2⟩ := foot_err (Dbl.pt p) (Dbl.pt a) (Dbl.pt b) M hp ha hb
  rw [sqSegDist_val, seg_exact]
  simp only
  rw [← ht]
  exact sum_err (diffsq_err hp.1 (conv_abs ha.1 hb.1 t0 t1) e1) (diffsq_err hp.2 (conv_abs ha.2 hb.2 t0 t1) e2)

/-- **C91** `Simplify` in float64: it terminates without panic, changes no coordinates and leaves the importance of the unmarked
vertices. Measured exactly, every vertex between two neighbours `a < b` of `first, S, last` (`S` the marked vertices) is within the
squared tolerance plus `M²/2^44` of the segment from `a` to `b`, and every marked vertex is more than the squared tolerance minus
`M²/2^44` from the segment joining two of `first, S, last` around it, and from which no vertex between is farther by more than
`M²/2^43`; its importance is that squared distance up to `M²/2^44`. -/
theorem C91_simplify (coords : List (Vertex Dbl)) (first last : Nat) (tol : Dbl) (hfl : first < last) (hl : last < coords.length) (M : ℚ)
    (hM : ∀ v ∈ coords, Small M (Dbl.pt v.xy)) :
    ∃ (r : List (Vertex Dbl)) (S : List Nat), simplify tol (last - first) coords first last = some (some r) ∧
      r.map (·.xy) = coords.map (·.xy) ∧ (∀ i ∈ S, first < i ∧ i < last) ∧ (∀ i, i ∉ S → r[i]? = coords[i]?) ∧
      (∀ i ∈ S, ∃ u, r[i]? = some u ∧ tol.val < u.imp.val ∧ ∃ a ∈ first :: S, ∃ b ∈ S ++ [last], a < i ∧ i < b ∧
        ∀ v w, coords[a]? = some v → coords[b]? = some w →
          |u.imp.val - sqSegDist (Dbl.pt u.xy) (Dbl.pt v.xy) (Dbl.pt w.xy)| ≤ M * M / 2 ^ 44 ∧
          ∀ j, a < j → j < b → ∀ x, coords[j]? = some x →
            sqSegDist (Dbl.pt x.xy) (Dbl.pt v.xy) (Dbl.pt w.xy) ≤ sqSegDist (Dbl.pt u.xy) (Dbl.pt v.xy) (Dbl.pt w.xy) + M * M / 2 ^ 43) ∧
      (first :: S ++ [last]).IsChain (fun a b => a < b ∧ ∀ i, a < i → i < b → ∀ u v w, coords[i]? = some u →
        coords[a]? = some v → coords[b]? = some w →
        sqSegDist (Dbl.pt u.xy) (Dbl.pt v.xy) (Dbl.pt w.xy) ≤ tol.val + M * M / 2 ^ 44) := by
  obtain ⟨r, S, h1, h2, h3, h4, h5, h6⟩ := C41_simplify coords first last tol hfl hl
  have mem : ∀ {i : Nat} {v : Vertex Dbl}, coords[i]? = some v → Small M (Dbl.pt v.xy) := fun h => hM _ (List.mem_of_getElem? h)
  refine ⟨r, S, h1, h2, h3, h4, ?_, ?_⟩
  · intro i hi
    obtain ⟨u, hu, hd, a, ha, b, hb, hai, hib, he, hall⟩ := h5 i hi
    refine ⟨u, hu, hd, a, ha, b, hb, hai, hib, ?_⟩
    intro v w hv hw
    have hu' : Small M (Dbl.pt u.xy) := by
      have : u.xy ∈ r.map (·.xy) := List.mem_map_of_mem (List.mem_of_getElem? hu)
      rw [h2, List.mem_map] at this
      obtain ⟨y, hy, e⟩ := this
      rw [← e]; exact hM y hy
    have d1 := C91_distance u.xy v.xy w.xy M hu' (mem hv) (mem hw)
    rw [← he v w hv hw] at d1
    refine ⟨d1, ?_⟩
    intro j hj1 hj2 x hx
    have d2 := C91_distance x.xy v.xy w.xy M (mem hx) (mem hv) (mem hw)
    have d3 := hall j hj1 hj2 x v w hx hv hw
    rw [le_val] at d3
    have d1' := (abs_le.mp d1).2
    have d2' := (abs_le.mp d2).1
    have e : M * M / 2 ^ 43 = M * M / 2 ^ 44 + M * M / 2 ^ 44 := by ring
    rw [e]
    linarith
  · refine h6.imp fun a b h => ⟨h.1, fun i hi1 hi2 u v w hu hv hw => ?_⟩
    have d1 := C91_distance u.xy v.xy w.xy M (mem hu) (mem hv) (mem hw)
    have d2 := h.2 i hi1 hi2 u v w hu hv hw
    rw [le_val] at d2
    have := (abs_le.mp d1).1
    linarith

/-! ### The mean of a multi-point -/

theorem sum_fold_err (M : ℚ) (hM : 0 ≤ M) : ∀ (xs : List ℚ), (∀ x ∈ xs, |x| ≤ M) → ∀ (n : Nat) (s' s : ℚ), (n : ℚ) + xs.length ≤ 2 ^ 32 →
    |s' - s| ≤ n * n * M * uu → |s| ≤ n * M →
    |xs.foldl (fun a x => F64.rnd (a + x)) s' - (s + xs.sum)| ≤ (n + xs.length) * (n + xs.length) * M * uu ∧
      |s + xs.sum| ≤ (n + xs.length) * M := by
  intro xs
  induction xs with
  | nil => intro _ n s' s _ h1 h2; simpa using ⟨h1, h2⟩
  | cons x xs ih =>
    intro hx n s' s hn h1 h2
    simp only [List.foldl_cons, List.sum_cons, List.length_cons, Nat.cast_add, Nat.cast_one] at hn ⊢
    have hx0 := hx x (by simp)
    have hlen : (0 : ℚ) ≤ xs.length := Nat.cast_nonneg _
    have hn0 : (0 : ℚ) ≤ n := Nat.cast_nonneg _
    have hn1 : (n : ℚ) ≤ 2 ^ 32 := by linarith
    have hnu : (n : ℚ) * n * uu ≤ n := by
      have h : (n : ℚ) * uu ≤ 1 := by
        have := mul_le_mul_of_nonneg_right hn1 uu_pos.le
        unfold uu at this ⊢
        norm_num at this ⊢
        linarith
      have := mul_le_mul_of_nonneg_left h hn0
      linarith
    have hA : (n : ℚ) * n * M * uu ≤ n * M := by
      have := mul_le_mul_of_nonneg_right hnu hM
      linarith
    have e1 : |s' + x - (s + x)| ≤ n * n * M * uu := by rw [add_sub_add_right_eq_sub]; exact h1
    have b0 : |s + x| ≤ (n + 1) * M := (abs_add_le _ _).trans (by linarith)
    have b1 : |s' + x| ≤ (2 * n + 1) * M := by
      have := abs_sub_abs_le_abs_sub (s' + x) (s + x)
      linarith
    have e2 := rnd_near' e1 b1
    have := ih (fun y hy => hx y (by simp [hy])) (n + 1) (F64.rnd (s' + x)) (s + x) (by push_cast; linarith)
      (by push_cast; refine e2.trans (le_of_eq ?_); ring) (by push_cast; exact b0)
    push_cast at this
    rw [add_assoc] at this
    have e3 : (n : ℚ) + 1 + xs.length = n + (xs.length + 1) := by ring
    rwa [e3] at this

theorem mean_fold (ps : List (Dbl × Dbl)) : ∀ s : Dbl × Dbl,
    (ps.foldl (fun s p => (s.1 + p.1, s.2 + p.2)) s).1.val = (ps.map fun p => p.1.val).foldl (fun a x => F64.rnd (a + x)) s.1.val ∧
    (ps.foldl (fun s p => (s.1 + p.1, s.2 + p.2)) s).2.val = (ps.map fun p => p.2.val).foldl (fun a x => F64.rnd (a + x)) s.2.val := by
  induction ps with
  | nil => intro s; exact ⟨rfl, rfl⟩
  | cons p ps ih => intro s; exact ih (s.1 + p.1, s.2 + p.2)

theorem mean1_err (M : ℚ) (xs : List ℚ) (h : ∀ x ∈ xs, |x| ≤ M) (hn : xs ≠ []) (hlen : xs.length ≤ 2 ^ 32) :
    |F64.rnd (xs.foldl (fun a x => F64.rnd (a + x)) 0 / F64.rnd xs.length) - xs.sum / xs.length| ≤ (xs.length + 2) * M / 2 ^ 53 := by
  have hM : 0 ≤ M := by
    obtain ⟨x, hx⟩ := List.exists_mem_of_ne_nil xs hn
    exact (abs_nonneg _).trans (h x hx)
  have hlenQ : (xs.length : ℚ) ≤ 2 ^ 32 := by exact_mod_cast hlen
  obtain ⟨e, b⟩ := sum_fold_err M hM xs h 0 0 0 (by push_cast; rw [zero_add]; exact hlenQ) (by simp) (by simp)
  have hpos : (0 : ℚ) < xs.length := by
    have := List.length_pos_of_ne_nil hn
    exact_mod_cast this
  have hr : F64.rnd (xs.length : ℚ) = xs.length := by
    have := rnd_int (xs.length : ℤ) (by rw [abs_of_nonneg (by positivity)]; have : (xs.length : ℤ) ≤ 2 ^ 32 := by exact_mod_cast hlen
                                        omega)
    exact_mod_cast this
  rw [hr]
  push_cast at e b
  simp only [zero_add] at e b
  generalize xs.foldl (fun a x => F64.rnd (a + x)) 0 = s' at *
  generalize xs.sum = s at *
  generalize (xs.length : ℚ) = n at *
  have e1 : |s' / n - s / n| ≤ n * M * uu := by
    rw [← sub_div, abs_div, abs_of_pos hpos, div_le_iff₀ hpos]
    refine e.trans (le_of_eq ?_); ring
  have b1 : |s / n| ≤ M := by
    rw [abs_div, abs_of_pos hpos, div_le_iff₀ hpos]
    linarith
  have hnu : n * uu ≤ 1 := by
    have := mul_le_mul_of_nonneg_right hlenQ uu_pos.le
    unfold uu at this ⊢
    norm_num at this ⊢
    linarith
  have b2 : |s' / n| ≤ 2 * M := by
    have := abs_sub_abs_le_abs_sub (s' / n) (s / n)
    have := mul_le_mul_of_nonneg_right hnu hM
    linarith
  refine (rnd_near' e1 b2).trans (le_of_eq ?_)
  unfold uu
  ring

/-- **C91** The mean of a multi-point of `n` points, as computed in float64, differs from the exact mean by at most
`(n + 2)·M/2^53` in either coordinate. -/
theorem C91_mean (M : ℚ) (ps : List (Dbl × Dbl)) (h : ∀ p ∈ ps, Small M (Dbl.pt p)) (hn : ps ≠ []) (hlen : ps.length ≤ 2 ^ 32) :
    Within ((ps.length + 2) * M / 2 ^ 53) (Dbl.pt (mean lenF ps))
      ((ps.map fun p => p.1.val).sum / ps.length, (ps.map fun p => p.2.val).sum / ps.length) := by
  have hf := mean_fold ps ((0 : Dbl), (0 : Dbl))
  have key1 := mean1_err M (ps.map fun p => p.1.val) (by
    intro x hx; obtain ⟨p, hp, rfl⟩ := List.mem_map.1 hx; exact (h p hp).1) (by simpa using hn) (by simpa using hlen)
  have key2 := mean1_err M (ps.map fun p => p.2.val) (by
    intro x hx; obtain ⟨p, hp, rfl⟩ := List.mem_map.1 hx; exact (h p hp).2) (by simpa using hn) (by simpa using hlen)
  rw [List.length_map] at key1 key2
  unfold mean Within Dbl.pt lenF
  simp only [div_val]
  rw [hf.1, hf.2]
  exact ⟨key1, key2⟩

/-- a case that meets the hypotheses: of four vertices the one at (1, 3) is marked with 9, the one at (2, 1) is not; tolerance 4 -/
theorem C91_example :
    let coords : List (Vertex Dbl) := [⟨(Dbl.of 0, Dbl.of 0), Dbl.of 0⟩, ⟨(Dbl.of 1, Dbl.of 3), Dbl.of 0⟩, ⟨(Dbl.of 2, Dbl.of 1), Dbl.of 0⟩,
      ⟨(Dbl.of 3, Dbl.of 0), Dbl.of 0⟩]
    (∀ v ∈ coords, Small 3 (Dbl.pt v.xy)) ∧
    (simplify (Dbl.of 4) 3 coords 0 3).map (·.map (·.map fun v => v.imp.val)) = some (some [0, 9, 0, 0]) := by
  unfold Clip.Small
  decide +kernel

/-- a case that meets the hypotheses of `C91_mean` -/
theorem C91_mean_example :
    Dbl.pt (mean lenF [(Dbl.of 0, Dbl.of 1), (Dbl.of 0, Dbl.of 2), (Dbl.of 1, Dbl.of 3)]) = (6004799503160661 / 2 ^ 54, 2) := by
  decide +kernel

end Verif.Reduce
