import Verif.Model.TileDist
import Verif.Spec.TileDist
import Verif.Props.TileGeo
import Verif.Props.TileID
import Mathlib.Geometry.Euclidean.Angle.Unoriented.TriangleInequality

/-! # C74: distances between positions; the text name of a position's tile -/

namespace Verif.Cover
open Verif.Tid Verif.Go

theorem deg2rad_eq (d : ℝ) : deg2rad d = radians d := by unfold deg2rad radians; ring

theorem norm_onSphere (lon lat : ℝ) : ‖onSphere lon lat‖ = 1 := by
  have h1 := Real.sin_sq_add_cos_sq (radians lat)
  have h2 := Real.sin_sq_add_cos_sq (radians lon)
  have : ‖onSphere lon lat‖ ^ 2 = 1 := by
    rw [EuclideanSpace.norm_sq_eq]
    simp only [onSphere, Fin.sum_univ_three, Real.norm_eq_abs, sq_abs]
    simp
    nlinarith
  nlinarith [norm_nonneg (onSphere lon lat)]

theorem inner_onSphere (lon lat lon' lat' : ℝ) :
    inner ℝ (onSphere lon lat) (onSphere lon' lat') =
      Real.cos (radians lat) * Real.cos (radians lat') * Real.cos (radians lon' - radians lon)
        + Real.sin (radians lat) * Real.sin (radians lat') := by
  rw [EuclideanSpace.inner_eq_star_dotProduct]
  simp [onSphere, dotProduct, Fin.sum_univ_three, Real.cos_sub]
  ring

/-- **C74** `Distance` is the length of the great-circle arc between the two positions on a sphere of 3963.190592
miles radius, whatever the coordinates. -/
theorem C74_great_circle (p q : ℝ × ℝ) : distance p q = arcLength 3963.190592 p q := by
  obtain ⟨x, y⟩ := p
  obtain ⟨x', y'⟩ := q
  set θ := InnerProductGeometry.angle (onSphere x y) (onSphere x' y') with hθ
  have h0 := InnerProductGeometry.angle_nonneg (onSphere x y) (onSphere x' y')
  have hpi := InnerProductGeometry.angle_le_pi (onSphere x y) (onSphere x' y')
  rw [← hθ] at h0 hpi
  have hc : Real.cos θ = Real.cos (radians y) * Real.cos (radians y') * Real.cos (radians x' - radians x)
        + Real.sin (radians y) * Real.sin (radians y') := by
    rw [hθ, InnerProductGeometry.cos_angle, norm_onSphere, norm_onSphere, inner_onSphere]; simp
  have hsub : ∀ a b, deg2rad (a - b) = radians a - radians b := by
    intro a b; unfold deg2rad radians; ring
  have hhalf : ∀ t : ℝ, Real.sin (t / 2) * Real.sin (t / 2) = (1 - Real.cos t) / 2 := by
    intro t
    have h1 := Real.cos_two_mul (t / 2)
    have h2 := Real.sin_sq_add_cos_sq (t / 2)
    rw [show 2 * (t / 2) = t by ring] at h1
    nlinarith
  have ha : Real.sin (deg2rad (y' - y) / 2) * Real.sin (deg2rad (y' - y) / 2) +
      Real.cos (deg2rad y) * Real.cos (deg2rad y') * Real.sin (|deg2rad (x' - x)| / 2) *
        Real.sin (|deg2rad (x' - x)| / 2) = Real.sin (θ / 2) ^ 2 := by
    rw [mul_assoc (Real.cos (deg2rad y) * Real.cos (deg2rad y')), hhalf, hhalf, pow_two, hhalf, hc, Real.cos_abs, hsub,
      hsub, Real.cos_sub (radians y'), deg2rad_eq, deg2rad_eq]
    ring
  have hb : 1 - Real.sin (θ / 2) ^ 2 = Real.cos (θ / 2) ^ 2 := by
    have := Real.sin_sq_add_cos_sq (θ / 2); linarith
  have hs : 0 ≤ Real.sin (θ / 2) := Real.sin_nonneg_of_nonneg_of_le_pi (by linarith) (by linarith)
  have hcs : 0 ≤ Real.cos (θ / 2) := Real.cos_nonneg_of_neg_pi_div_two_le_of_le (by linarith) (by linarith)
  unfold distance arcLength
  simp only
  rw [ha, hb, Real.sqrt_sq hs, Real.sqrt_sq hcs]
  have harg : atan2 (Real.sin (θ / 2)) (Real.cos (θ / 2)) = θ / 2 := by
    have := Complex.arg_cos_add_sin_mul_I (θ := θ / 2) ⟨by linarith [Real.pi_pos], by linarith [Real.pi_pos]⟩
    refine Eq.trans ?_ this
    unfold atan2
    congr 1
    rw [← Complex.ofReal_cos, ← Complex.ofReal_sin]
    apply Complex.ext <;> simp only [Complex.add_re, Complex.add_im, Complex.ofReal_re, Complex.ofReal_im, Complex.mul_re,
      Complex.mul_im, Complex.I_re, Complex.I_im, mul_zero, mul_one, zero_mul, sub_zero, add_zero, zero_add]
  rw [harg, ← hθ]
  unfold earthRadius
  ring

/-- **C74** `Distance` is a metric on the sphere: symmetric, 0 exactly for coordinates of the same point of the sphere, at
most half the circumference, and a detour is never shorter. -/
theorem C74_metric (p q r : ℝ × ℝ) :
    distance p q = distance q p ∧ 0 ≤ distance p q ∧ distance p q ≤ Real.pi * 3963.190592 ∧
      (distance p q = 0 ↔ onSphere p.1 p.2 = onSphere q.1 q.2) ∧
      distance p r ≤ distance p q + distance q r := by
  simp only [C74_great_circle, arcLength]
  refine ⟨by rw [InnerProductGeometry.angle_comm], ?_, ?_, ?_, ?_⟩
  · exact mul_nonneg (by norm_num) (InnerProductGeometry.angle_nonneg _ _)
  · have := InnerProductGeometry.angle_le_pi (onSphere p.1 p.2) (onSphere q.1 q.2)
    nlinarith
  · constructor
    · intro h
      have h0 : InnerProductGeometry.angle (onSphere p.1 p.2) (onSphere q.1 q.2) = 0 := by
        rcases mul_eq_zero.mp h with h | h
        · norm_num at h
        · exact h
      obtain ⟨_, c, _, hq⟩ := InnerProductGeometry.angle_eq_zero_iff.mp h0
      have hc : c = 1 := by
        have := congrArg norm hq
        rw [norm_smul, norm_onSphere, norm_onSphere] at this
        simp at this
        rw [abs_of_pos (by assumption)] at this
        exact this.symm
      rw [hq, hc, one_smul]
    · intro h
      rw [h, InnerProductGeometry.angle_self (by
        intro h0
        have := norm_onSphere q.1 q.2
        rw [h0, norm_zero] at this
        exact zero_ne_one this), mul_zero]
  · have := InnerProductGeometry.angle_le_angle_add_angle (onSphere p.1 p.2) (onSphere q.1 q.2) (onSphere r.1 r.2)
    nlinarith

/-- **C74** On one meridian the distance is proportional to the difference of latitudes: about 69.17 miles a degree. -/
theorem C74_meridian (lon lat lat' : ℝ) (h : |lat' - lat| ≤ 180) :
    distance (lon, lat) (lon, lat') = 3963.190592 * (|lat' - lat| / 180 * Real.pi) := by
  rw [C74_great_circle, arcLength]
  congr 1
  simp only [InnerProductGeometry.angle, norm_onSphere, inner_onSphere, sub_self, Real.cos_zero, mul_one, div_one]
  have hpi := Real.pi_pos
  rw [show Real.cos (radians lat) * Real.cos (radians lat') + Real.sin (radians lat) * Real.sin (radians lat') =
    Real.cos (|lat' - lat| / 180 * Real.pi) from ?_]
  · exact Real.arccos_cos (by positivity) (by nlinarith)
  · have : |lat' - lat| / 180 * Real.pi = |radians lat' - radians lat| := by
      unfold radians
      rw [← sub_mul, ← sub_div, abs_mul, abs_div, abs_of_pos hpi, abs_of_pos (show (0 : ℝ) < 180 by norm_num)]
    rw [this, Real.cos_abs, Real.cos_sub]
    ring

/-- A quarter of the way round the earth from the pole to the equator. -/
example : distance (0, 90) (0, 0) = 3963.190592 * (1 / 2 * Real.pi) := by
  rw [C74_meridian] <;> norm_num

/-- **C74** `CreateMap` holds exactly the given tiles, each once, with the empty string. -/
theorem C74_createMap (tiles : List TileID) :
    (∀ t v, (t, v) ∈ createMap tiles ↔ t ∈ tiles ∧ v = "") ∧ ((createMap tiles).map Prod.fst).Nodup := by
  have key : ∀ (l : List TileID) (m : List (TileID × String)), (m.map Prod.fst).Nodup → (∀ e ∈ m, e.2 = "") →
      (∀ t v, (t, v) ∈ l.foldl mapPut m ↔ ((t, v) ∈ m ∨ t ∈ l) ∧ v = "") ∧ ((l.foldl mapPut m).map Prod.fst).Nodup := by
    intro l
    induction l with
    | nil =>
      intro m hn hv
      refine ⟨fun t v => ?_, hn⟩
      simp only [List.foldl_nil, List.not_mem_nil, or_false]
      exact ⟨fun h => ⟨h, hv _ h⟩, fun h => h.1⟩
    | cons k l ih =>
      intro m hn hv
      have hn' : ((mapPut m k).map Prod.fst).Nodup := by
        unfold mapPut
        rw [List.map_append, List.nodup_append]
        refine ⟨(List.filter_sublist.map _).nodup hn, by simp, ?_⟩
        intro a ha b hb
        simp only [List.mem_map, List.mem_filter] at ha
        obtain ⟨e, ⟨_, he⟩, rfl⟩ := ha
        simp only [List.map_cons, List.map_nil, List.mem_singleton] at hb
        subst hb
        simpa using he
      have hv' : ∀ e ∈ mapPut m k, e.2 = "" := by
        intro e he
        unfold mapPut at he
        rcases List.mem_append.mp he with he | he
        · exact hv e (List.mem_of_mem_filter he)
        · rw [List.mem_singleton.mp he]
      obtain ⟨h1, h2⟩ := ih (mapPut m k) hn' hv'
      refine ⟨fun t v => ?_, h2⟩
      rw [List.foldl_cons, h1]
      unfold mapPut
      simp only [List.mem_append, List.mem_filter, List.mem_cons, List.not_mem_nil, or_false, Prod.mk.injEq, ne_eq,
        decide_not, Bool.not_eq_true', decide_eq_false_iff_not]
      constructor
      · intro hh
        obtain ⟨hh, hvv⟩ := hh
        refine ⟨?_, hvv⟩
        rcases hh with (h | h) | h
        · exact Or.inl h.1
        · exact Or.inr (Or.inl h.1)
        · exact Or.inr (Or.inr h)
      · rintro ⟨(h | h | h), rfl⟩
        · by_cases hk : t = k
          · exact ⟨Or.inl (Or.inr ⟨hk, rfl⟩), rfl⟩
          · exact ⟨Or.inl (Or.inl ⟨h, hk⟩), rfl⟩
        · exact ⟨Or.inl (Or.inr ⟨h, rfl⟩), rfl⟩
        · exact ⟨Or.inr h, rfl⟩
  have := key tiles [] (by simp) (by simp)
  refine ⟨fun t v => ?_, this.2⟩
  rw [createMap, this.1]
  simp

end Verif.Cover

namespace Verif.Tid
open Verif.Go

/-- **C74** `Tile_Geohash` names the tile `Tile` gives. -/
theorem C74_geohash (lng lat : ℝ) (zoom : Int) : tileGeohash lng lat zoom = tilestr (tile lng lat zoom) := rfl

/-- **C74** For a position of the Web-Mercator square the name `Tile_Geohash` gives reads back (`Strtile`) as the tile
`{x, y, z}` exactly if the position lies in the box of that tile. -/
theorem C74_geohash_iff (lng lat : ℝ) (x y : Int) (z : Nat) (hz : z ≤ 63) (h : (bounds ⟨0, 0, 0⟩).HasPoint lng lat) :
    strtile (tileGeohash lng lat z) = some ⟨x, y, z⟩ ↔ (bounds ⟨x, y, z⟩).HasPoint lng lat := by
  obtain ⟨h1, h2⟩ := hasPoint_lat h
  obtain ⟨hg, hZ⟩ := C05_square_in_grid lng lat z (by omega) h
  rw [C74_geohash, C07_strtile_tilestr _ (valid_of_le63 hg (by rw [hZ]; exact hz)), Option.some_inj]
  exact C05_tile_iff_in_bounds lng lat x y z (by omega) h1 h2

/-- non-vacuity: the centre of the map at zoom 1 -/
example : strtile (tileGeohash 13 0 (1 : Nat)) = some ⟨1, 1, 1⟩ := by
  have h : (bounds ⟨0, 0, 0⟩).HasPoint 13 0 :=
    (C05_tile_iff_in_bounds 13 0 0 0 0 (by norm_num) (by norm_num) (by norm_num)).mp (by
      rw [tile_Y_eq (by norm_num) (by norm_num)]
      unfold rowf
      norm_num [u64])
  refine (C74_geohash_iff 13 0 1 1 1 (by norm_num) h).mpr
    ((C05_tile_iff_in_bounds 13 0 1 1 1 (by norm_num) (by norm_num) (by norm_num)).mp ?_)
  rw [tile_Y_eq (by norm_num) (by norm_num)]
  unfold rowf
  norm_num [u64]

end Verif.Tid
