import Verif.Props.TileCoverFloat

/-! # C90: lines along a meridian in float64 -/
namespace Verif.CoverF
open Verif.F64 Verif.Tid.Float Verif.Go
open Verif.Tid (TileID)
open Verif.Cover (fillVals fillVals_mem)

/-- The mercator ordinate grows at least as fast as the latitude. -/
theorem L_grow {a b : ℝ} (ha : |a| ≤ 1.4923) (hb : |b| ≤ 1.4923) : |a - b| ≤ |L a - L b| := by
  have hp := Real.pi_gt_d4
  obtain ⟨a1, a2⟩ := abs_le.mp ha
  obtain ⟨b1, b2⟩ := abs_le.mp hb
  have h := gd_lip (L a) (L b)
  rwa [gd_L (by linarith) (by linarith), gd_L (by linarith) (by linarith)] at h

theorem L_mono {a b : ℝ} (ha : |a| ≤ 1.4923) (hb : |b| ≤ 1.4923) (h : a < b) : b - a ≤ L b - L a ∧ L b - L a ≤ 13 * (b - a) := by
  have g := L_grow hb ha
  have l := L_lip hb ha
  rw [abs_of_pos (by linarith : 0 < b - a)] at g l
  have hp := Real.pi_gt_d4
  obtain ⟨a1, a2⟩ := abs_le.mp ha
  obtain ⟨b1, b2⟩ := abs_le.mp hb
  have hpos : 0 < L b - L a := by
    by_contra hc
    push Not at hc
    have e := gd_L (φ := a) (by linarith) (by linarith)
    have e' := gd_L (φ := b) (by linarith) (by linarith)
    have m : Real.arctan (Real.sinh (L b)) ≤ Real.arctan (Real.sinh (L a)) :=
      Real.arctan_mono (Real.sinh_le_sinh.2 (by linarith))
    rw [e, e'] at m
    linarith
  rw [abs_of_pos hpos] at g l
  exact ⟨g, l⟩

/-- the value sampled just south of the north edge of row `v`, and its row -/
theorem sample_row {M : MathLib} (hM : Accurate M) {v : ℤ} {zoom : ℕ} (hz : zoom ≤ 27) (h0 : 0 ≤ v) (h1 : v < 2 ^ zoom) (X : ℤ) (x : ℚ) :
    (tile M x (rnd ((bounds M ⟨X, v, zoom⟩).N - eps7)) zoom).Y = v := by
  have he := eps_pos
  have hE : eps = 1 / 1125899906842624 := by unfold eps; norm_num
  have hsm : Small ⟨0, v, zoom⟩ := ⟨le_refl _, by positivity, h0, h1.le, by simp only; omega⟩
  have ln := lat_near hM hsm
  obtain ⟨la, lL⟩ := lat_abs hsm
  have e : (bounds M ⟨X, v, zoom⟩).N = (ul M ⟨0, v, zoom⟩).2 := rfl
  rw [e]
  generalize (ul M ⟨0, v, zoom⟩).2 = w at ln
  generalize (Tid.ul ⟨0, v, zoom⟩).2 = φ at ln la lL
  simp only at lL
  have c := eps7_near
  generalize eps7 = q7 at c
  obtain ⟨la1, la2⟩ := abs_le.mp la
  have s := rnd_near (q := w - q7) (x := φ - 1 / 10 ^ 7) (d := 1901 * eps) (B := 86) (by
    push_cast
    have e2 : (w : ℝ) - q7 - (φ - 1 / 10 ^ 7) = (w - φ) - (q7 - 1 / 10 ^ 7) := by ring
    rw [e2]
    exact (abs_sub _ _).trans (by linarith)) (by
    rw [abs_le]; constructor <;> norm_num <;> linarith)
  have s' : |((rnd (w - q7) : ℚ) : ℝ) - (φ - 1 / 10 ^ 7)| ≤ 2000 * eps := by
    refine s.trans ?_
    rw [hE]; norm_num
  generalize rnd (w - q7) = q at s'
  obtain ⟨s1, s2⟩ := abs_le.mp s'
  rw [hE] at s1 s2
  norm_num at s1 s2
  have hq : |(q : ℝ)| ≤ 85.5 := by rw [abs_le]; constructor <;> linarith
  have hpi := Real.pi_pos
  have hpi2 := Real.pi_lt_d6
  have k0 : 0 < Real.pi / 180 := by positivity
  have k1 : Real.pi / 180 ≤ 3.141593 / 180 := by gcongr
  have dom : ∀ x : ℝ, |x| ≤ 85.5 → |x * (Real.pi / 180)| ≤ 1.4923 := by
    intro x hx
    rw [abs_mul, abs_of_pos k0]
    calc |x| * (Real.pi / 180) ≤ 85.5 * (3.141593 / 180) := by gcongr
      _ ≤ 1.4923 := by norm_num
  have hlt : (q : ℝ) * (Real.pi / 180) < φ * (Real.pi / 180) := by
    apply mul_lt_mul_of_pos_right _ k0; linarith
  obtain ⟨m1, m2⟩ := L_mono (dom q hq) (dom φ (by linarith)) hlt
  rw [lL, ← sub_mul] at m1 m2
  obtain ⟨q1, q2⟩ := abs_le.mp hq
  have rw1 := rowf_L (lat := (q : ℝ)) (by linarith) (by linarith)
  have r := row_near hM q hq zoom
  have e2 : (2 : ℝ) ^ (zoom : ℤ) = 2 ^ zoom := zpow_natCast _ _
  rw [e2, rw1] at r
  generalize L ((q : ℝ) * (Real.pi / 180)) = A at *
  have hn : (0 : ℝ) < 2 ^ zoom := by positivity
  have hp : (2 : ℝ) ^ zoom ≤ 134217728 := by
    have : (2 : ℝ) ^ zoom ≤ 2 ^ 27 := pow_le_pow_right₀ (by norm_num) hz
    norm_num at this; exact this
  have hw : (1 - A / Real.pi) / 2 = (v : ℝ) / 2 ^ zoom + (Real.pi * (1 - 2 * v / 2 ^ zoom) - A) / (2 * Real.pi) := by
    field_simp; ring
  rw [hw] at r
  set D := (Real.pi * (1 - 2 * v / 2 ^ zoom) - A) / (2 * Real.pi) with hD
  have D1 : 1 / 10 ^ 10 ≤ D := by
    rw [hD, le_div_iff₀ (by positivity)]
    refine le_trans ?_ m1
    have : (9 / 10 ^ 8 : ℝ) ≤ φ - q := by norm_num; linarith
    calc 1 / 10 ^ 10 * (2 * Real.pi) ≤ 9 / 10 ^ 8 * (Real.pi / 180) := by
          rw [show (9 / 10 ^ 8 : ℝ) * (Real.pi / 180) = 5 / 10 ^ 10 * Real.pi by ring,
            show (1 / 10 ^ 10 : ℝ) * (2 * Real.pi) = 2 / 10 ^ 10 * Real.pi by ring]
          exact mul_le_mul_of_nonneg_right (by norm_num) hpi.le
      _ ≤ (φ - q) * (Real.pi / 180) := by gcongr
  have D2 : D ≤ 4 / 10 ^ 9 := by
    rw [hD, div_le_iff₀ (by positivity)]
    refine le_trans m2 ?_
    have : φ - q ≤ (11 / 10 ^ 8 : ℝ) := by norm_num; linarith
    calc 13 * ((φ - q) * (Real.pi / 180)) ≤ 13 * (11 / 10 ^ 8 * (Real.pi / 180)) := by gcongr
      _ ≤ 4 / 10 ^ 9 * (2 * Real.pi) := by
          rw [show (13 : ℝ) * (11 / 10 ^ 8 * (Real.pi / 180)) = 143 / 180 / 10 ^ 8 * Real.pi by ring,
            show (4 / 10 ^ 9 : ℝ) * (2 * Real.pi) = 8 / 10 ^ 9 * Real.pi by ring]
          exact mul_le_mul_of_nonneg_right (by norm_num) hpi.le
  generalize D = D at *
  unfold tile
  simp only
  apply floor_near (x := ((v : ℝ) / 2 ^ zoom + D) * 2 ^ zoom) (d := 2 ^ zoom * (400 * eps)) (k := v)
  · exact lt_of_le_of_lt r (mul_lt_mul_of_pos_left (by linarith) hn)
  · rw [add_mul, div_mul_cancel₀ _ hn.ne', mul_comm D]
    have : 400 * eps ≤ D := by rw [hE]; norm_num at D1 ⊢; linarith
    gcongr
  · rw [add_mul, div_mul_cancel₀ _ hn.ne']
    have a1 : D * 2 ^ zoom ≤ 4 / 10 ^ 9 * 134217728 := by gcongr
    have a2 : (2 : ℝ) ^ zoom * (400 * eps) ≤ 134217728 * (400 * eps) := by gcongr
    rw [hE] at a2 ⊢
    norm_num at a1 a2 ⊢
    linarith

/-- `Interpolate` between points of one longitude. -/
theorem interpolate_steep (a b : Pt) (v : ℚ) (h : b.1 = a.1) (hF : IsF a.1) : interpolate a b v true = (a.1, v) := by
  unfold interpolate
  simp only [if_true, h, sub_self, rnd_zero, zero_div, mul_zero, add_zero]
  rw [hF.rnd_eq]

/-- **C90** A segment along a meridian that `GetTilesLine` takes for longer than a tile: the cover has all rows between those of the
ends. -/
theorem C90_meridian_complete {M : MathLib} (hM : Accurate M) (ord : Nat → List TileID → List TileID) (ho : ∀ n l, (ord n l).Perm l)
    (p : Pt) (rest : List Pt) (zoom : Nat) (hz : zoom ≤ 27) (r : List TileID) (h : getTilesLine M ord (p :: rest) zoom = some r)
    (a b : Pt) (hab : (a, b) ∈ (p :: rest).zip rest) (hcol : b.1 = a.1) (hF : IsF a.1)
    (hlong : |rnd (b.2 - a.2)| > rnd ((bounds M (tile M p.1 p.2 zoom)).N - (bounds M (tile M p.1 p.2 zoom)).S))
    (ha : 0 ≤ (tile M a.1 a.2 zoom).Y ∧ (tile M a.1 a.2 zoom).Y ≤ 2 ^ zoom)
    (hb : 0 ≤ (tile M b.1 b.2 zoom).Y ∧ (tile M b.1 b.2 zoom).Y ≤ 2 ^ zoom) (y : ℤ)
    (hy : ((tile M a.1 a.2 zoom).Y ≤ y ∧ y ≤ (tile M b.1 b.2 zoom).Y) ∨ ((tile M b.1 b.2 zoom).Y ≤ y ∧ y ≤ (tile M a.1 a.2 zoom).Y)) :
    ⟨(tile M a.1 a.2 zoom).X, y, zoom⟩ ∈ r := by
  have hmem := List.of_mem_zip hab
  obtain ⟨r', e', -, -, -, hv⟩ := C90_line M ord ho p rest zoom (by omega)
  rw [h, Option.some.injEq] at e'
  have hva : tile M a.1 a.2 zoom ∈ r := by rw [e']; exact hv a hmem.1
  have hvb : tile M b.1 b.2 zoom ∈ r := by rw [e']; exact hv b (List.mem_cons_of_mem _ hmem.2)
  have za := tile_Z M a.1 a.2 zoom (by omega)
  have zb := tile_Z M b.1 b.2 zoom (by omega)
  have xb : (tile M b.1 b.2 zoom).X = (tile M a.1 a.2 zoom).X := by rw [hcol]; rfl
  have ext : ∀ s t : TileID, s.X = t.X → s.Y = t.Y → s.Z = t.Z → s = t := by
    rintro ⟨_, _, _⟩ ⟨_, _, _⟩ h1 h2 h3
    simp only at h1 h2 h3
    rw [h1, h2, h3]
  by_cases h1 : y = (tile M a.1 a.2 zoom).Y
  · rw [ext ⟨(tile M a.1 a.2 zoom).X, y, zoom⟩ (tile M a.1 a.2 zoom) rfl h1 za.symm]; exact hva
  by_cases h2 : y = (tile M b.1 b.2 zoom).Y
  · rw [ext ⟨(tile M a.1 a.2 zoom).X, y, zoom⟩ (tile M b.1 b.2 zoom) xb.symm h2 zb.symm]; exact hvb
  have hfill : y ∈ fillVals (tile M a.1 a.2 zoom).Y (tile M b.1 b.2 zoom).Y := by rw [fillVals_mem]; omega
  simp only [getTilesLine, Option.some.injEq] at h
  rw [← h, lineLoop_mem _ _ ho]
  right; right
  refine ⟨(a, b), hab, Or.inr hlong, ?_⟩
  rw [betweenTiles_mem]
  refine Or.inr (Or.inr ⟨fun e => by have := e.2; simp only at this; omega, Or.inr ⟨rnd ((bounds M ⟨(tile M a.1 a.2 zoom).X, y, zoom⟩).N - eps7), ?_, ?_⟩⟩)
  · unfold produceVals
    rw [List.mem_flatMap]
    exact ⟨y, hfill, by simp⟩
  · rw [interpolate_steep a b _ hcol hF]
    have c := sample_row hM hz (v := y) (by omega) (by omega) (tile M a.1 a.2 zoom).X a.1
    refine ext _ _ rfl c.symm (tile_Z M _ _ _ (by show zoom < _; omega)).symm

theorem worldY_45 : (1 : ℝ) / 4 + 1 / 2 ^ 41 ≤ worldY 45 ∧ worldY 45 ≤ 3 / 8 - 1 / 2 ^ 41 := by
  have hpi := Real.pi_pos
  have hpi1 := Real.pi_gt_d2
  have hpi2 := Real.pi_lt_d2
  have e : worldY 45 = (1 - Real.log (1 + Real.sqrt 2) / Real.pi) / 2 := by
    unfold worldY
    have : (45 : ℝ) / 180 * Real.pi = Real.pi / 4 := by ring
    rw [this, Real.tan_pi_div_four, Real.cos_pi_div_four]
    congr 5
    rw [one_div_div, div_eq_iff (by positivity)]
    exact (Real.mul_self_sqrt (by norm_num)).symm
  have s1 : (1.4 : ℝ) ≤ Real.sqrt 2 := Real.le_sqrt_of_sq_le (by norm_num)
  have s2 : Real.sqrt 2 ≤ 1.5 := Real.sqrt_le_iff.2 ⟨by norm_num, by norm_num⟩
  have hl : Real.log (1 + Real.sqrt 2) ≤ 1 := by
    rw [Real.log_le_iff_le_exp (by positivity)]
    have := Real.exp_one_gt_d9
    linarith
  have hg : (0.85 : ℝ) ≤ Real.log (1 + Real.sqrt 2) := by
    have h1 : Real.log 2.4 ≤ Real.log (1 + Real.sqrt 2) := Real.log_le_log (by norm_num) (by linarith)
    have h2 : Real.log 2.4 = Real.log 2 + Real.log 1.2 := by
      rw [← Real.log_mul (by norm_num) (by norm_num)]; norm_num
    have h3 := Real.log_two_gt_d9
    have h4 := Real.one_sub_inv_le_log_of_pos (show (0 : ℝ) < 1.2 by norm_num)
    norm_num at h4 ⊢
    rw [h2] at h1
    norm_num at h1
    linarith
  rw [e]
  generalize Real.log (1 + Real.sqrt 2) = l at *
  constructor
  · have : l / Real.pi ≤ 1 / 3 := by rw [div_le_iff₀ hpi]; linarith
    norm_num
    linarith
  · have : (0.26 : ℝ) ≤ l / Real.pi := by rw [le_div_iff₀ hpi]; linarith
    norm_num at this ⊢
    linarith

theorem worldY_neg45 : worldY (-45) = 1 - worldY 45 := by
  have hpi := Real.pi_pos
  unfold worldY
  have e1 : (45 : ℝ) / 180 * Real.pi = Real.pi / 4 := by ring
  have e2 : (-45 : ℝ) / 180 * Real.pi = -(Real.pi / 4) := by ring
  rw [e1, e2, Real.tan_neg, Real.cos_neg]
  have e3 : -Real.tan (Real.pi / 4) + 1 / Real.cos (Real.pi / 4) = (Real.tan (Real.pi / 4) + 1 / Real.cos (Real.pi / 4))⁻¹ := by
    rw [Real.tan_pi_div_four, Real.cos_pi_div_four]
    have h2 : Real.sqrt 2 * Real.sqrt 2 = 2 := Real.mul_self_sqrt (by norm_num)
    have e : (1 : ℝ) / (Real.sqrt 2 / 2) = Real.sqrt 2 := by
      rw [one_div_div, div_eq_iff (by positivity)]; exact h2.symm
    rw [e]
    apply eq_inv_of_mul_eq_one_left
    linarith
  rw [e3, Real.log_inv]
  field_simp
  ring

/-- a case that meets the hypotheses: a line along a meridian -/
theorem C90_meridian_example {M : MathLib} (hM : Accurate M) (ord : Nat → List TileID → List TileID) (ho : ∀ n l, (ord n l).Perm l) :
    ∃ r, getTilesLine M ord [(1, -45), (1, 45)] 3 = some r ∧ tile M 1 (-45) (3 : Nat) = ⟨4, 5, 3⟩ ∧ tile M 1 45 (3 : Nat) = ⟨4, 2, 3⟩ ∧
      (⟨4, 3, 3⟩ : TileID) ∈ r ∧ (⟨4, 4, 3⟩ : TileID) ∈ r := by
  obtain ⟨r, hr, -⟩ := C90_line M ord ho (1, -45) [(1, 45)] 3 (by norm_num)
  obtain ⟨w1, w2⟩ := worldY_45
  have wn := worldY_neg45
  have t1 : tile M 1 (-45) ((3 : Nat) : ℤ) = ⟨4, 5, 3⟩ := by
    refine C75_tile hM 1 (-45) (by norm_num) (by norm_num [abs_le]) ⟨4, 5, 3⟩ (by norm_num) ?_ ?_ ?_ ?_
    · unfold worldX; norm_num
    · unfold worldX; norm_num
    · push_cast; rw [wn]; norm_num at w1 w2 ⊢; linarith
    · push_cast; rw [wn]; norm_num at w1 w2 ⊢; linarith
  have t2 : tile M 1 45 ((3 : Nat) : ℤ) = ⟨4, 2, 3⟩ := by
    refine C75_tile hM 1 45 (by norm_num) (by norm_num [abs_le]) ⟨4, 2, 3⟩ (by norm_num) ?_ ?_ ?_ ?_
    · unfold worldX; norm_num
    · unfold worldX; norm_num
    · push_cast; norm_num at w1 w2 ⊢; linarith
    · push_cast; norm_num at w1 w2 ⊢; linarith
  refine ⟨r, hr, t1, t2, ?_⟩
  have hlong : |rnd ((45 : ℚ) - -45)| > rnd ((bounds M (tile M 1 (-45) (3 : Nat))).N - (bounds M (tile M 1 (-45) (3 : Nat))).S) := by
    rw [t1]
    have e90 : rnd ((45 : ℚ) - -45) = 90 := by
      have := rnd_int 90 (by norm_num)
      norm_num at this ⊢
      exact this
    rw [e90]
    have hE : eps = 1 / 1125899906842624 := by unfold eps; norm_num
    have hg : (⟨4, 5, 3⟩ : TileID).InGrid := by unfold TileID.InGrid; norm_num
    obtain ⟨s1, s2⟩ := small_of_grid hg (by norm_num)
    obtain ⟨-, -, b3, b4⟩ := C75_bounds hM ⟨4, 5, 3⟩ hg (by norm_num)
    have hN : (Tid.bounds ⟨4, 5, 3⟩).N ≤ 0 := by
      show 180 / Real.pi * Real.arctan (Real.sinh (Real.pi * (1 - 2 * ((5 : ℤ) : ℝ) / 2 ^ 3))) ≤ 0
      have hpi := Real.pi_pos
      apply mul_nonpos_of_nonneg_of_nonpos (by positivity)
      rw [← Real.arctan_zero]
      apply Real.arctan_mono
      rw [← Real.sinh_zero]
      apply Real.sinh_le_sinh.2
      norm_num
      linarith
    have hS : -85.4 ≤ (Tid.bounds ⟨4, 5, 3⟩).S := by
      have := (lat_abs s2).1
      exact (abs_le.mp this).1
    have hd : ((bounds M ⟨4, 5, 3⟩).N - (bounds M ⟨4, 5, 3⟩).S : ℚ) ≤ 86 := by
      have : (((bounds M ⟨4, 5, 3⟩).N - (bounds M ⟨4, 5, 3⟩).S : ℚ) : ℝ) ≤ ((86 : ℚ) : ℝ) := by
        push_cast
        have p1 := (abs_le.mp b3).2
        have p2 := (abs_le.mp b4).1
        norm_num at p1 p2 hS
        linarith
      exact_mod_cast this
    have hm := rnd_mono hd
    have e86 : rnd (86 : ℚ) = 86 := by
      have := rnd_int 86 (by norm_num)
      norm_num at this ⊢
      exact this
    rw [e86] at hm
    have : |(90 : ℚ)| = 90 := by norm_num
    rw [this]
    exact lt_of_le_of_lt hm (by norm_num)
  have key := fun y hy => C90_meridian_complete hM ord ho (1, -45) [(1, 45)] 3 (by norm_num) r hr (1, -45) (1, 45) (by simp) rfl
    (isF_int 1 (by norm_num)) hlong (by rw [t1]; norm_num) (by rw [t2]; norm_num) y hy
  simp only [t1, t2] at key
  exact ⟨key 3 (by norm_num), key 4 (by norm_num)⟩

theorem clear_45 : RowClear 2 45 ∧ RowClear 2 (-45) := by
  obtain ⟨w1, w2⟩ := worldY_45
  have wn := worldY_neg45
  norm_num at w1 w2
  refine ⟨⟨by norm_num [abs_le], fun k => ?_⟩, ⟨by norm_num [abs_le], fun k => ?_⟩⟩
  · push_cast
    rcases le_or_gt k 1 with h | h
    · have h' : (k : ℝ) ≤ 1 := by exact_mod_cast h
      refine le_trans ?_ (le_abs_self _)
      norm_num
      linarith
    · have h' : (2 : ℝ) ≤ k := by exact_mod_cast h
      refine le_trans ?_ (neg_le_abs _)
      norm_num
      linarith
  · push_cast
    rw [wn]
    rcases le_or_gt k 2 with h | h
    · have h' : (k : ℝ) ≤ 2 := by exact_mod_cast h
      refine le_trans ?_ (le_abs_self _)
      norm_num
      linarith
    · have h' : (3 : ℝ) ≤ k := by exact_mod_cast h
      refine le_trans ?_ (neg_le_abs _)
      norm_num
      linarith

/-- a case that meets the hypotheses of `C90_polygon_vertices` -/
theorem C90_polygon_example {M : MathLib} (hM : Accurate M) :
    ∃ r, getTilesPolygon M [[(-100, 45), (100, 45), (20, -45), (-100, 45)]] 2 = some r ∧ r.Nodup ∧
      tile M (-100) 45 (2 : Nat) ∈ r ∧ tile M 100 45 (2 : Nat) ∈ r ∧ tile M 20 (-45) (2 : Nat) ∈ r := by
  obtain ⟨c1, c2⟩ := clear_45
  obtain ⟨r, hr, hn, -⟩ := C90_polygon M [(-100, 45), (100, 45), (20, -45), (-100, 45)] [] 2 (by simp)
  have key := C90_polygon_vertices hM (-100, 45) [(100, 45), (20, -45)] [] 2 (by norm_num) (by
    intro p hp
    simp only [List.mem_cons, List.not_mem_nil, or_false] at hp
    rcases hp with rfl | rfl | rfl
    · exact ⟨by norm_num [abs_le], c1⟩
    · exact ⟨by norm_num [abs_le], c1⟩
    · exact ⟨by norm_num [abs_le], c2⟩) (by simp) r hr
  exact ⟨r, hr, hn, key (-100, 45) (by simp), key (100, 45) (by simp), key (20, -45) (by simp)⟩

end Verif.CoverF
