import Verif.Proof.Font
import Mathlib.Analysis.Real.Sqrt
import Mathlib.Algebra.Order.Floor.Ring
import Mathlib.Tactic.Positivity

/-!
# C17, C18, C19, C64: fonts
-/
namespace Verif.Font

/-! ## C17: language coverage -/

/-- Specification: the characters of the language that some font has. -/
def covered (exemplar : List Nat) (fonts : List (List Nat)) : List Nat :=
  exemplar.filter fun c => fonts.any fun p => p.contains c

/-- Specification: the characters whose first font is number `i`. -/
def firstIn (exemplar : List Nat) (fonts : List (List Nat)) (i : Nat) : List Nat :=
  exemplar.filter fun c => (fonts[i]?.any fun p => p.contains c) && !((fonts.take i).any fun p => p.contains c)

theorem length_difference (a b : List Nat) :
    a.length - (difference a b).length = (a.filter fun x => b.contains x).length := by
  have h := List.length_eq_length_filter_add (l := a) (fun x => b.contains x)
  unfold difference
  omega

theorem coverLoop_length (e : List Nat) (fs : List (List Nat)) : (coverLoop e fs).length = fs.length := by
  induction fs generalizing e with
  | nil => rfl
  | cons p ps ih => simp [coverLoop, ih]

theorem coverLoop_get (e : List Nat) (fs : List (List Nat)) (i : Nat) (h : i < fs.length) :
    (coverLoop e fs)[i]? = some (firstIn e fs i).length := by
  induction fs generalizing e i with
  | nil => simp at h
  | cons p ps ih =>
    cases i with
    | zero => simp [coverLoop, length_difference, firstIn]
    | succ i =>
      simp only [coverLoop, List.getElem?_cons_succ]
      rw [ih (difference e p) i (by simpa using h)]
      congr 2
      unfold firstIn difference
      rw [List.filter_filter]
      apply List.filter_congr
      intro x _
      simp only [List.getElem?_cons_succ, List.take_succ_cons, List.any_cons, Bool.not_or]
      cases p.contains x <;> simp

theorem coverLoop_sum (e : List Nat) (fs : List (List Nat)) : (coverLoop e fs).sum = (covered e fs).length := by
  induction fs generalizing e with
  | nil => simp [coverLoop, covered]
  | cons p ps ih =>
    simp only [coverLoop, List.sum_cons, length_difference, ih]
    have h := List.length_eq_length_filter_add (l := covered e (p :: ps)) (fun x => p.contains x)
    rw [h]
    congr 2
    · unfold covered
      rw [List.filter_filter]
      apply List.filter_congr
      intro x _
      simp only [List.any_cons]
      cases p.contains x <;> simp
    · unfold covered difference
      rw [List.filter_filter, List.filter_filter]
      apply List.filter_congr
      intro x _
      simp only [List.any_cons]
      cases p.contains x <;> simp

/-- `Total` is the number of exemplar characters, `Count` the number that at least one font has, the
`Coverages` sum to `Count`, one per font, and `Count <= Total`. -/
theorem C17_count (e : List Nat) (fs : List (List Nat)) :
    (coverage e fs).total = e.length ∧ (coverage e fs).count = (covered e fs).length ∧
    (coverage e fs).count = (coverage e fs).coverages.sum ∧ (coverage e fs).coverages.length = fs.length ∧
    (coverage e fs).count ≤ (coverage e fs).total := by
  refine ⟨rfl, coverLoop_sum e fs, rfl, coverLoop_length e fs, ?_⟩
  show (coverLoop e fs).sum ≤ e.length
  rw [coverLoop_sum]
  exact List.length_filter_le _ _

/-- Font `i` is credited with the characters it is the first to have. -/
theorem C17_first_font (e : List Nat) (fs : List (List Nat)) (i : Nat) (h : i < fs.length) :
    (coverage e fs).coverages[i]? = some (firstIn e fs i).length := coverLoop_get e fs i h

theorem covered_congr (e : List Nat) (fs gs : List (List Nat)) (h : ∀ p, p ∈ fs ↔ p ∈ gs) :
    covered e fs = covered e gs := by
  unfold covered
  apply List.filter_congr
  intro x _
  rw [Bool.eq_iff_iff]
  simp only [List.any_eq_true, h]

/-- The order of the fonts (and giving one twice) does not change the count. -/
theorem C17_order (e : List Nat) (fs gs : List (List Nat)) (h : ∀ p, p ∈ fs ↔ p ∈ gs) :
    (coverage e fs).count = (coverage e gs).count := by
  rw [(C17_count e fs).2.1, (C17_count e gs).2.1, covered_congr e fs gs h]

/-- Adding fonts never lowers the count. -/
theorem C17_mono (e : List Nat) (fs gs : List (List Nat)) (h : ∀ p ∈ fs, p ∈ gs) :
    (coverage e fs).count ≤ (coverage e gs).count := by
  rw [(C17_count e fs).2.1, (C17_count e gs).2.1]
  unfold covered
  apply List.Sublist.length_le
  apply List.monotone_filter_right
  intro x hx
  simp only [List.any_eq_true] at hx ⊢
  obtain ⟨p, hp, hx⟩ := hx
  exact ⟨p, h p hp, hx⟩

example : coverage [65, 66, 67, 200] [[65, 300], [65, 66, 7]] = ⟨4, 2, [1, 1]⟩ := by decide +kernel

/-! ## C18: the distance field -/

/-- Specification: `c` is the least of squared distance plus seed over all pixels of a `w × h` grid. -/
def IsSqDist {K : Type} [Field K] [LinearOrder K] (seed : Nat → Nat → K) (w h x y : Nat) (c : K) : Prop :=
  (∃ i < w, ∃ j < h, c = ((x : K) - i) ^ 2 + ((y : K) - j) ^ 2 + seed i j) ∧
  ∀ i < w, ∀ j < h, c ≤ ((x : K) - i) ^ 2 + ((y : K) - j) ^ 2 + seed i j

section
variable {K : Type} [Field K] [LinearOrder K] [IsStrictOrderedRing K]

theorem isSqDist_iff (g : Nat → Nat → K) (w h x y : Nat) (c : K) :
    IsSqDist g w h x y c ↔ IsLeast (costs2 g w h x y) c := by
  constructor
  · rintro ⟨⟨i, hi, j, hj, e⟩, h2⟩
    refine ⟨⟨i, hi, j, hj, by rw [e]; ring⟩, ?_⟩
    rintro c' ⟨i, hi, j, hj, rfl⟩
    have := h2 i hi j hj
    rw [pow_two, pow_two] at this
    exact this
  · rintro ⟨⟨i, hi, j, hj, e⟩, h2⟩
    refine ⟨⟨i, hi, j, hj, by rw [e]; ring⟩, ?_⟩
    intro i hi j hj
    have := h2 ⟨i, hi, j, hj, rfl⟩
    rw [pow_two, pow_two]
    exact this

/-- One dimension: whatever the work slices held, `edt1d` leaves in `d[q]` the least squared distance plus
seed. -/
theorem C18_edt1d (L n : Nat) (b : Bufs K) (hL : n < L) (hn : 0 < n) (hsmall : n ≤ 10000000000)
    (hseed : ∀ i < n, 0 ≤ b.f i ∧ b.f i ≤ INF) :
    ∃ b', edt1d L n b = some b' ∧ ∀ q < n,
      (∃ j < n, b'.d q = ((q : K) - j) ^ 2 + b.f j) ∧ ∀ j < n, b'.d q ≤ ((q : K) - j) ^ 2 + b.f j := by
  obtain ⟨b', e, h⟩ := edt1d_spec L n b hL hn ⟨hsmall, fun i hi => (hseed i hi).1, fun i hi => (hseed i hi).2⟩
  refine ⟨b', e, fun q hq => ?_⟩
  obtain ⟨⟨j, hj, ej⟩, hmin⟩ := h q hq
  refine ⟨⟨j, hj, by rw [ej]; ring⟩, fun j hj => ?_⟩
  have := hmin ⟨j, hj, rfl⟩
  rw [pow_two]; exact this

/-- Two dimensions: every grid with both sides at least 2 and seeds in `[0, INF]` is mapped, without a panic and
whatever the work slices held, to the square root of the least squared distance plus seed. -/
theorem C18_edt (sqrt : K → K) (w h : Nat) (seed : Nat → Nat → K) (b : Bufs K) (hw : 2 ≤ w) (hh : 2 ≤ h)
    (hw' : w ≤ 10000000000) (hh' : h ≤ 10000000000) (hseed : ∀ i < w, ∀ j < h, 0 ≤ seed i j ∧ seed i j ≤ INF) :
    ∃ g b', edt sqrt (w * h) w h seed b = some (g, b') ∧
      ∀ x < w, ∀ y < h, ∃ c, IsSqDist seed w h x y c ∧ g x y = sqrt c := by
  have h1 : w < w * h := by nlinarith
  have h2 : h < w * h := by nlinarith
  obtain ⟨g, b', e, hg⟩ := edt_spec sqrt w h (w * h) seed b (by omega) (by omega) h1 h2 hw' hh'
    (fun i hi j hj => (hseed i hi j hj).1) (fun i hi j hj => (hseed i hi j hj).2)
  refine ⟨g, b', e, fun x hx y hy => ?_⟩
  obtain ⟨c, hc, ec⟩ := hg x hx y hy
  exact ⟨c, (isSqDist_iff _ _ _ _ _ _).2 hc, ec⟩

theorem alpha_range {a : Nat} (ha : a ≤ 65535) : 0 ≤ (a : K) / 65535 ∧ (a : K) / 65535 ≤ 1 := by
  have : (a : K) ≤ 65535 := by exact_mod_cast ha
  constructor
  · positivity
  · rw [div_le_one (by norm_num)]; exact this

theorem outerSeed_range {a : Nat} (ha : a ≤ 65535) : 0 ≤ (outerSeed a : K) ∧ (outerSeed a : K) ≤ INF := by
  have hI : (0 : K) ≤ INF := by unfold INF; positivity
  have hI1 : (1 : K) ≤ INF := by unfold INF; norm_num
  obtain ⟨h0, h1⟩ := alpha_range (K := K) ha
  unfold outerSeed
  simp only
  split
  · split
    · exact ⟨hI, le_refl _⟩
    · refine ⟨mul_self_nonneg _, ?_⟩
      have h3 : 0 ≤ max 0 (1 / 2 - (a : K) / 65535) := le_max_left _ _
      have h4 : max 0 (1 / 2 - (a : K) / 65535) ≤ 1 := max_le (by norm_num) (by linarith)
      nlinarith
  · exact ⟨le_refl _, hI⟩

theorem innerSeed_range {a : Nat} (ha : a ≤ 65535) : 0 ≤ (innerSeed a : K) ∧ (innerSeed a : K) ≤ INF := by
  have hI : (0 : K) ≤ INF := by unfold INF; positivity
  have hI1 : (1 : K) ≤ INF := by unfold INF; norm_num
  obtain ⟨h0, h1⟩ := alpha_range (K := K) ha
  unfold innerSeed
  simp only
  split
  · split
    · exact ⟨le_refl _, hI⟩
    · refine ⟨mul_self_nonneg _, ?_⟩
      have h3 : 0 ≤ max 0 ((a : K) / 65535 - 1 / 2) := le_max_left _ _
      have h4 : max 0 ((a : K) / 65535 - 1 / 2) ≤ 1 := max_le (by norm_num) (by linarith)
      nlinarith
  · exact ⟨hI, le_refl _⟩

end

/-- Specification of a pixel's seed for the distance to the shape: none for a full pixel, infinite for an empty
one, `(1/2 - alpha)^2` for a pixel covered less than half, none for one covered more. -/
noncomputable def shapeSeed (a : Nat) : ℝ :=
  if a = 65535 then 0 else if a = 0 then 10 ^ 20 else if (a : ℝ) / 65535 ≤ 1 / 2 then (1 / 2 - (a : ℝ) / 65535) ^ 2 else 0

/-- The same for the distance to the background. -/
noncomputable def holeSeed (a : Nat) : ℝ :=
  if a = 65535 then 10 ^ 20 else if a = 0 then 0 else if 1 / 2 ≤ (a : ℝ) / 65535 then ((a : ℝ) / 65535 - 1 / 2) ^ 2 else 0

theorem alpha_one {a : Nat} : ((a : ℝ) / 65535 = 1) ↔ a = 65535 := by
  rw [div_eq_one_iff_eq (by norm_num)]; norm_cast

theorem alpha_zero {a : Nat} : ((a : ℝ) / 65535 = 0) ↔ a = 0 := by
  rw [div_eq_zero_iff]; norm_num

theorem outerSeed_eq (a : Nat) : (outerSeed a : ℝ) = shapeSeed a := by
  unfold outerSeed shapeSeed
  simp only [ne_eq, alpha_one, alpha_zero, ite_not]
  split_ifs with h1 h2 h3
  · rfl
  · rfl
  · rw [max_eq_right (by linarith)]; ring
  · rw [max_eq_left (by linarith)]; ring

theorem innerSeed_eq (a : Nat) : (innerSeed a : ℝ) = holeSeed a := by
  unfold innerSeed holeSeed
  simp only [ne_eq, alpha_one, alpha_zero, ite_not]
  split_ifs with h1 h2 h3
  · rfl
  · rfl
  · rw [max_eq_right (by linarith)]; ring
  · rw [max_eq_left (by linarith)]; ring

/-- `CalcSDF` in exact arithmetic: for every image with both sides at least 2 there is no panic, and each byte is
`255 - 255*((D - D')/radius + cutoff)` rounded and clamped to `0..255`, `D` being the distance to the shape and
`D'` the distance to the background. -/
theorem C18_sdf (w h : Nat) (alpha : Nat → Nat → Nat) (radius cutoff : ℝ) (hw : 2 ≤ w) (hh : 2 ≤ h)
    (hw' : w ≤ 10000000000) (hh' : h ≤ 10000000000) (ha : ∀ i < w, ∀ j < h, alpha i j ≤ 65535) :
    ∃ px, calcSDF Real.sqrt w h alpha radius cutoff = some px ∧ ∀ x < w, ∀ y < h, ∃ co ci,
      IsSqDist (fun i j => shapeSeed (alpha i j)) w h x y co ∧ IsSqDist (fun i j => holeSeed (alpha i j)) w h x y ci ∧
      (px x y : ℤ) =
        max 0 (min 255 (Style.roundK (255 - 255 * ((Real.sqrt co - Real.sqrt ci) / radius + cutoff)))) := by
  obtain ⟨o, b, e1, h1⟩ := C18_edt Real.sqrt w h (fun x y => outerSeed (alpha x y))
    ⟨fun _ => 0, fun _ => 0, fun _ => 0, fun _ => 0⟩ hw hh hw' hh' (fun i hi j hj => outerSeed_range (ha i hi j hj))
  obtain ⟨o', b', e2, h2⟩ := C18_edt Real.sqrt w h (fun x y => innerSeed (alpha x y)) b hw hh hw' hh'
    (fun i hi j hj => innerSeed_range (ha i hi j hj))
  refine ⟨fun x y => sdfByte radius cutoff (o x y - o' x y), by simp only [calcSDF, e1, e2], fun x hx y hy => ?_⟩
  obtain ⟨co, hco, eco⟩ := h1 x hx y hy
  obtain ⟨ci, hci, eci⟩ := h2 x hx y hy
  simp only [outerSeed_eq] at hco
  simp only [innerSeed_eq] at hci
  refine ⟨co, ci, hco, hci, ?_⟩
  simp only [sdfByte, eco, eci]
  exact Int.toNat_of_nonneg (le_max_left _ _)

theorem isSqDist_nonneg {g : Nat → Nat → ℝ} {w h x y : Nat} {c : ℝ} (hg : ∀ i < w, ∀ j < h, 0 ≤ g i j)
    (H : IsSqDist g w h x y c) : 0 ≤ c := by
  obtain ⟨⟨i, hi, j, hj, e⟩, -⟩ := H
  rw [e]
  have := hg i hi j hj
  positivity

theorem isSqDist_zero {g : Nat → Nat → ℝ} {w h x y : Nat} {c : ℝ} (hg : ∀ i < w, ∀ j < h, 0 ≤ g i j)
    (hx : x < w) (hy : y < h) (h0 : g x y = 0) (H : IsSqDist g w h x y c) : c = 0 := by
  have h1 := H.2 x hx y hy
  rw [h0] at h1
  simp at h1
  exact le_antisymm h1 (isSqDist_nonneg hg H)

theorem shapeSeed_nonneg (a : Nat) : 0 ≤ shapeSeed a := by
  unfold shapeSeed
  split_ifs <;> positivity

theorem holeSeed_nonneg (a : Nat) : 0 ≤ holeSeed a := by
  unfold holeSeed
  split_ifs <;> positivity

theorem roundK_mono_le {x : ℝ} {n : ℤ} (h0 : 0 ≤ n) (h : (n : ℝ) - 1 / 2 ≤ x) (h1 : 0 ≤ x) : n ≤ Style.roundK x := by
  unfold Style.roundK
  rw [if_pos h1, Int.le_floor]
  linarith

theorem roundK_le {x : ℝ} {n : ℤ} (h0 : 0 ≤ n) (h : x < (n : ℝ) + 1 / 2) : Style.roundK x ≤ n := by
  unfold Style.roundK
  split_ifs with h1
  · have : ⌊x + 1 / 2⌋ < n + 1 := by
      rw [Int.floor_lt]; push_cast; linarith
    omega
  · have : (0 : ℤ) ≤ ⌊-x + 1 / 2⌋ := Int.floor_nonneg.2 (by linarith)
    omega

/-- With the radius and cutoff `Glyph` uses: a pixel covered at least half gets a byte of at least 191, a pixel
covered at most half a byte of at most 191. -/
theorem C18_edge (w h : Nat) (alpha : Nat → Nat → Nat) (hw : 2 ≤ w) (hh : 2 ≤ h)
    (hw' : w ≤ 10000000000) (hh' : h ≤ 10000000000) (ha : ∀ i < w, ∀ j < h, alpha i j ≤ 65535) :
    ∃ px, calcSDF Real.sqrt w h alpha 8 (1 / 4) = some px ∧ ∀ x < w, ∀ y < h, px x y ≤ 255 ∧
      (65535 ≤ 2 * alpha x y → 191 ≤ px x y) ∧ (2 * alpha x y ≤ 65535 → px x y ≤ 191) := by
  obtain ⟨px, e, hp⟩ := C18_sdf w h alpha 8 (1 / 4) hw hh hw' hh' ha
  refine ⟨px, e, fun x hx y hy => ?_⟩
  obtain ⟨co, ci, hco, hci, ev⟩ := hp x hx y hy
  have so : ∀ i < w, ∀ j < h, 0 ≤ shapeSeed (alpha i j) := fun i _ j _ => shapeSeed_nonneg _
  have si : ∀ i < w, ∀ j < h, 0 ≤ holeSeed (alpha i j) := fun i _ j _ => holeSeed_nonneg _
  refine ⟨?_, fun h2 => ?_, fun h2 => ?_⟩
  · have : (px x y : ℤ) ≤ 255 := by
      rw [ev]; exact max_le (by norm_num) (min_le_left _ _)
    omega
  · have hs : shapeSeed (alpha x y) = 0 := by
      have h3 : (65535 : ℝ) ≤ 2 * (alpha x y : ℝ) := by exact_mod_cast h2
      unfold shapeSeed
      rw [if_neg (show alpha x y ≠ 0 by omega)]
      split_ifs with h4 h5
      · rfl
      · have : (alpha x y : ℝ) / 65535 = 1 / 2 := by
          apply le_antisymm h5
          rw [div_le_div_iff₀ (by norm_num) (by norm_num)]; linarith
        rw [this]; norm_num
      · rfl
    have hc := isSqDist_zero so hx hy hs hco
    have : (191 : ℤ) ≤ px x y := by
      rw [ev, hc, Real.sqrt_zero]
      have hi := Real.sqrt_nonneg ci
      apply le_max_of_le_right
      apply le_min (by norm_num)
      apply roundK_mono_le (by norm_num) <;> push_cast <;> linarith
    omega
  · have hs : holeSeed (alpha x y) = 0 := by
      have h3 : 2 * (alpha x y : ℝ) ≤ (65535 : ℝ) := by exact_mod_cast h2
      unfold holeSeed
      rw [if_neg (show alpha x y ≠ 65535 by omega)]
      split_ifs with h4 h5
      · rfl
      · have : (alpha x y : ℝ) / 65535 = 1 / 2 := by
          apply le_antisymm _ h5
          rw [div_le_div_iff₀ (by norm_num) (by norm_num)]; linarith
        rw [this]; norm_num
      · rfl
    have hc := isSqDist_zero si hx hy hs hci
    have : (px x y : ℤ) ≤ 191 := by
      rw [ev, hc, Real.sqrt_zero]
      have hi := Real.sqrt_nonneg co
      apply max_le (by norm_num)
      apply min_le_of_right_le
      apply roundK_le (by norm_num)
      push_cast
      linarith
    omega

/-- Specification: `c` is the squared distance from `(x, y)` to the nearest pixel of the `w × h` grid with `p`. -/
def IsNearest (p : Nat → Nat → Prop) (w h x y : Nat) (c : ℝ) : Prop :=
  (∃ i < w, ∃ j < h, p i j ∧ c = ((x : ℝ) - i) ^ 2 + ((y : ℝ) - j) ^ 2) ∧
  ∀ i < w, ∀ j < h, p i j → c ≤ ((x : ℝ) - i) ^ 2 + ((y : ℝ) - j) ^ 2

theorem sq_small {x i n : Nat} (hx : x < n) (hi : i < n) (hn : n ≤ 1000000000) : ((x : ℝ) - i) ^ 2 ≤ 10 ^ 18 := by
  have h1 : (x : ℝ) ≤ 10 ^ 9 := by
    have : x ≤ 10 ^ 9 := by have : (10 : Nat) ^ 9 = 1000000000 := by norm_num
                            omega
    exact_mod_cast this
  have h2 : (i : ℝ) ≤ 10 ^ 9 := by
    have : i ≤ 10 ^ 9 := by have : (10 : Nat) ^ 9 = 1000000000 := by norm_num
                            omega
    exact_mod_cast this
  have h3 : (0 : ℝ) ≤ x := Nat.cast_nonneg x
  have h4 : (0 : ℝ) ≤ i := Nat.cast_nonneg i
  have : |(x : ℝ) - i| ≤ 10 ^ 9 := by rw [abs_le]; constructor <;> linarith
  calc ((x : ℝ) - i) ^ 2 = |(x : ℝ) - i| ^ 2 := (sq_abs _).symm
    _ ≤ (10 ^ 9) ^ 2 := by gcongr
    _ = 10 ^ 18 := by norm_num

theorem nearest_of_sqDist {seed : Nat → Nat → ℝ} {p : Nat → Nat → Prop} {w h x y : Nat} {c : ℝ}
    (hx : x < w) (hy : y < h) (hw : w ≤ 1000000000) (hh : h ≤ 1000000000)
    (h0 : ∀ i < w, ∀ j < h, p i j → seed i j = 0) (h1 : ∀ i < w, ∀ j < h, ¬ p i j → seed i j = 10 ^ 20)
    (hp : ∃ i < w, ∃ j < h, p i j) (H : IsSqDist seed w h x y c) : IsNearest p w h x y c := by
  obtain ⟨⟨i, hi, j, hj, e⟩, hmin⟩ := H
  have hall : ∀ i < w, ∀ j < h, p i j → c ≤ ((x : ℝ) - i) ^ 2 + ((y : ℝ) - j) ^ 2 := by
    intro i hi j hj hpij
    have := hmin i hi j hj
    rwa [h0 i hi j hj hpij, add_zero] at this
  refine ⟨⟨i, hi, j, hj, ?_⟩, hall⟩
  have hpij : p i j := by
    by_contra hc
    rw [h1 i hi j hj hc] at e
    obtain ⟨i', hi', j', hj', hp'⟩ := hp
    have a := hall i' hi' j' hj' hp'
    have b1 := sq_small hx hi' hw
    have b2 := sq_small hy hj' hh
    have c1 := sq_nonneg ((x : ℝ) - i)
    have c2 := sq_nonneg ((y : ℝ) - j)
    norm_num at *
    linarith
  refine ⟨hpij, ?_⟩
  rw [e, h0 i hi j hj hpij, add_zero]

/-- A black and white image with at least one pixel of each kind: the byte is given by the Euclidean distances to
the nearest full and the nearest empty pixel. -/
theorem C18_binary (w h : Nat) (alpha : Nat → Nat → Nat) (radius cutoff : ℝ) (hw : 2 ≤ w) (hh : 2 ≤ h)
    (hw' : w ≤ 1000000000) (hh' : h ≤ 1000000000) (ha : ∀ i < w, ∀ j < h, alpha i j = 0 ∨ alpha i j = 65535)
    (hfull : ∃ i < w, ∃ j < h, alpha i j = 65535) (hempty : ∃ i < w, ∃ j < h, alpha i j = 0) :
    ∃ px, calcSDF Real.sqrt w h alpha radius cutoff = some px ∧ ∀ x < w, ∀ y < h, ∃ cf ce,
      IsNearest (fun i j => alpha i j = 65535) w h x y cf ∧ IsNearest (fun i j => alpha i j = 0) w h x y ce ∧
      (px x y : ℤ) =
        max 0 (min 255 (Style.roundK (255 - 255 * ((Real.sqrt cf - Real.sqrt ce) / radius + cutoff)))) := by
  obtain ⟨px, e, hp⟩ := C18_sdf w h alpha radius cutoff hw hh (by omega) (by omega)
    (fun i hi j hj => by rcases ha i hi j hj with h | h <;> omega)
  refine ⟨px, e, fun x hx y hy => ?_⟩
  obtain ⟨co, ci, hco, hci, ev⟩ := hp x hx y hy
  refine ⟨co, ci, nearest_of_sqDist hx hy hw' hh' ?_ ?_ hfull hco, nearest_of_sqDist hx hy hw' hh' ?_ ?_ hempty hci, ev⟩
  · intro i _ j _ h1; simp only [shapeSeed, if_pos h1]
  · intro i hi j hj h1
    have : alpha i j = 0 := by rcases ha i hi j hj with h | h; exact h; exact absurd h h1
    simp [shapeSeed, this]
  · intro i _ j _ h1; simp [holeSeed, h1]
  · intro i hi j hj h1
    have : alpha i j = 65535 := by rcases ha i hi j hj with h | h; exact absurd h h1; exact h
    simp [holeSeed, this]

/-- hypotheses of `C18_binary` met by a 3 × 2 image -/
example : (∀ i < 3, ∀ j < 2, (fun i _ => if i = 0 then 65535 else 0 : Nat → Nat → Nat) i j = 0 ∨
    (fun i _ => if i = 0 then 65535 else 0 : Nat → Nat → Nat) i j = 65535) ∧
    (∃ i < 3, ∃ j < 2, (fun i _ => if i = 0 then 65535 else 0 : Nat → Nat → Nat) i j = 65535) ∧
    (∃ i < 3, ∃ j < 2, (fun i _ => if i = 0 then 65535 else 0 : Nat → Nat → Nat) i j = 0) := by decide

/-- The side condition is needed: an image of at most one pixel, or of 1 × 2 or 2 × 1 pixels, panics (the slice
`z` is one entry short). -/
theorem C18_tiny_images_panic (alpha : Nat → Nat → Nat) (ha : ∀ i j, alpha i j ≤ 65535) (radius cutoff : ℝ) :
    calcSDF Real.sqrt 1 1 alpha radius cutoff = none ∧ calcSDF Real.sqrt 1 2 alpha radius cutoff = none := by
  constructor
  · simp [calcSDF, edt, colStep, edt1d, List.range_succ]
  · have hE : ∀ b : Bufs ℝ, 0 ≤ b.f 0 ∧ b.f 0 ≤ INF → 0 ≤ b.f 1 ∧ b.f 1 ≤ INF → edt1d 2 2 b = none := by
      intro b h0 h1
      have hs : ¬ getS b.f 1 0 ≤ -INF := by
        push Not
        refine lt_getS (n := 2) ⟨by norm_num, ?_, ?_⟩ (by norm_num) (by norm_num)
        · intro i hi; rcases Nat.lt_or_ge i 1 with h | h
          · rw [show i = 0 by omega]; exact h0.1
          · rw [show i = 1 by omega]; exact h1.1
        · intro i hi; rcases Nat.lt_or_ge i 1 with h | h
          · rw [show i = 0 by omega]; exact h0.2
          · rw [show i = 1 by omega]; exact h1.2
      have hb : buildStep 2 b.f (0, put b.v 0 0, put (put b.z 0 (-INF)) 1 INF) 1 = none := by
        have : popLoop b.f (put b.v 0 0) (put (put b.z 0 (-INF)) 1 INF) 1 0 = some 0 := by
          simp only [popLoop, put_same, put_ne _ _ (show (0 : Nat) ≠ 1 by omega), if_neg hs]
        simp only [buildStep, this]
        rw [if_neg (by omega)]
      simp only [edt1d, List.range', List.foldlM, hb]
      simp
    have hcol : colStep 2 2 ((fun x y => outerSeed (alpha x y)), (⟨fun _ => 0, fun _ => 0, fun _ => 0, fun _ => 0⟩ : Bufs ℝ)) 0
        = none := by
      unfold colStep
      rw [hE _ (by simpa using outerSeed_range (ha 0 0)) (by simpa using outerSeed_range (ha 0 1))]
    unfold calcSDF edt
    simp only [List.range_succ, List.range_zero, List.nil_append, List.foldlM, Nat.one_mul, hcol]
    rfl

/-! ## C19: glyph ranges -/

/-- Specification: the font has a glyph for `x` that can be drawn and is not empty. -/
def Drawable (F : FontFace) (x : Int) : Prop :=
  x ≠ 0 ∧ F.index x ≠ 0 ∧ ∃ g, F.draw x = some g ∧ g.sizeX ≠ 0 ∧ g.sizeY ≠ 0

/-- The drawings have sizes below 10^8 and the alphas of masks are 8-bit. -/
structure FaceOk (F : FontFace) : Prop where
  size : ∀ x g, F.draw x = some g → g.sizeX ≤ 100000000 ∧ g.sizeY ≤ 100000000
  alpha : ∀ x g, F.draw x = some g → ∀ i j, g.mask i j ≤ 255

open Classical in
/-- the glyph of a drawable code point, as the specification wants it, up to the bitmap's contents -/
def GlyphFor (F : FontFace) (buffer : Nat) (x : Int) (g : Glyph) : Prop :=
  (g.id : Int) = x ∧ ∃ dr, F.draw x = some dr ∧ g.width = dr.sizeX ∧ g.height = dr.sizeY ∧ g.left = dr.minX ∧
    g.top = -dr.minY ∧ g.advance = dr.advance ∧
    g.bitmap.length = (dr.sizeX + 2 * buffer) * (dr.sizeY + 2 * buffer) ∧ ∀ b ∈ g.bitmap, b ≤ 255

theorem length_sdfBytes (w h : Nat) (f : Nat → Nat → Nat) : (sdfBytes w h f).length = w * h := by
  unfold sdfBytes
  rw [List.length_flatMap]
  simp [Nat.mul_comm]

theorem mem_sdfBytes {w h : Nat} {f : Nat → Nat → Nat} {b : Nat} (hb : b ∈ sdfBytes w h f) :
    ∃ x < w, ∃ y < h, b = f x y := by
  unfold sdfBytes at hb
  simp only [List.mem_flatMap, List.mem_range, List.mem_map] at hb
  obtain ⟨y, hy, x, hx, e⟩ := hb
  exact ⟨x, hx, y, hy, e.symm⟩

theorem mask_le {dr : Drawn} (h : ∀ i j, dr.mask i j ≤ 255) {buffer : Nat} (i j : Nat) : drawMask buffer dr i j ≤ 65535 := by
  unfold drawMask
  have := h (dr.maskX - buffer + i) (dr.maskY - buffer + j)
  omega

/-- `Glyph`: nil exactly for code points that cannot be drawn, otherwise the glyph; no panic. -/
theorem C19_glyph (F : FontFace) (hF : FaceOk F) (buffer : Nat) (hb : 1 ≤ buffer) (hb' : buffer ≤ 100000000) (x : Int)
    (h0 : 0 ≤ x) (h1 : x < 4294967296) :
    (¬ Drawable F x ∧ glyph Real.sqrt buffer F x = some none) ∨
    (Drawable F x ∧ ∃ g, glyph Real.sqrt buffer F x = some (some g) ∧ GlyphFor F buffer x g) := by
  by_cases hx : x = 0
  · exact Or.inl ⟨fun h => h.1 hx, by rw [glyph, if_pos hx]⟩
  by_cases hi : F.index x = 0
  · exact Or.inl ⟨fun h => h.2.1 hi, by rw [glyph, if_neg hx, if_pos hi]⟩
  cases hd : F.draw x with
  | none =>
    refine Or.inl ⟨?_, by rw [glyph, if_neg hx, if_neg hi, hd]⟩
    rintro ⟨-, -, g, e, -⟩
    rw [hd] at e; cases e
  | some dr =>
    by_cases hs : dr.sizeX = 0 ∨ dr.sizeY = 0
    · refine Or.inl ⟨?_, by rw [glyph, if_neg hx, if_neg hi, hd]; simp only; rw [if_pos hs]⟩
      rintro ⟨-, -, g, e, h2, h3⟩
      rw [hd] at e; injection e with e; rw [← e] at h2 h3
      rcases hs with h | h
      · exact h2 h
      · exact h3 h
    · push Not at hs
      refine Or.inr ⟨⟨hx, hi, dr, hd, hs.1, hs.2⟩, ?_⟩
      have hsz := hF.size x dr hd
      obtain ⟨px, ep, hp⟩ := C18_edge (dr.sizeX + buffer * 2) (dr.sizeY + buffer * 2) (drawMask buffer dr) (by omega) (by omega)
        (by omega) (by omega) (fun i _ j _ => mask_le (hF.alpha x dr hd) i j)
      refine ⟨_, by rw [glyph, if_neg hx, if_neg hi, hd]; simp only; rw [if_neg (by push Not; exact hs), ep], ?_⟩
      refine ⟨?_, dr, hd, rfl, rfl, rfl, rfl, rfl, ?_, ?_⟩
      · simp only
        rw [Int.emod_eq_of_lt h0 h1]; omega
      · simp only [length_sdfBytes]
        rw [Nat.mul_comm buffer 2]
      · intro b hb
        obtain ⟨x', hx', y', hy', e⟩ := mem_sdfBytes hb
        rw [e]; exact (hp x' hx' y' hy').1

theorem sdfBytes_get (w h : Nat) (f : Nat → Nat → Nat) {x y : Nat} (hx : x < w) (hy : y < h) : (sdfBytes w h f)[x + y * w]? = some (f x y) := by
  unfold sdfBytes
  induction h with
  | zero => omega
  | succ h ih =>
    have hl : ((List.range h).flatMap fun y => (List.range w).map fun x => f x y).length = w * h := length_sdfBytes w h f
    rw [List.range_succ, List.flatMap_append]
    rcases Nat.lt_or_ge y h with h1 | h1
    · have : x + y * w < w * h := by
        have : (y + 1) * w ≤ h * w := Nat.mul_le_mul_right _ h1
        rw [Nat.mul_comm w h]
        linarith [Nat.add_one_mul y w]
      rw [List.getElem?_append_left (by omega)]
      exact ih h1
    · have : y = h := by omega
      subst this
      rw [List.getElem?_append_right (by rw [hl, Nat.mul_comm]; omega), hl, Nat.mul_comm w y, Nat.add_sub_cancel]
      simp [hx]

/-- Specification: the mask around the drawing, `buffer` pixels on each side; pixel (0, 0) is the mask's at `buffer` left of and above its
point. -/
def around (dr : Drawn) (buffer : Nat) (i j : Nat) : Nat := 257 * dr.mask (dr.maskX + i - buffer) (dr.maskY + j - buffer)

/-- The bitmap is the distance field (see C18) of the mask around the drawing, row by row: each byte is
`255 - 255*((D - D')/8 + 1/4)` rounded and clamped, `D` and `D'` being the distances to the shape and to the background. -/
theorem C19_bitmap (F : FontFace) (hF : FaceOk F) (buffer : Nat) (hb : 1 ≤ buffer) (hb' : buffer ≤ 100000000) (x : Int) (g : Glyph)
    (hg : glyph Real.sqrt buffer F x = some (some g)) :
    ∃ dr, F.draw x = some dr ∧ ∀ i < dr.sizeX + 2 * buffer, ∀ j < dr.sizeY + 2 * buffer, ∃ v co ci,
      g.bitmap[i + j * (dr.sizeX + 2 * buffer)]? = some v ∧
      IsSqDist (fun i j => shapeSeed (around dr buffer i j)) (dr.sizeX + 2 * buffer) (dr.sizeY + 2 * buffer) i j co ∧
      IsSqDist (fun i j => holeSeed (around dr buffer i j)) (dr.sizeX + 2 * buffer) (dr.sizeY + 2 * buffer) i j ci ∧
      (v : ℤ) = max 0 (min 255 (Style.roundK (255 - 255 * ((Real.sqrt co - Real.sqrt ci) / 8 + 1 / 4)))) := by
  unfold glyph at hg
  split at hg
  · cases hg
  split at hg
  · cases hg
  split at hg
  · cases hg
  rename_i dr hd
  split at hg
  · cases hg
  rename_i hs
  push Not at hs
  have hsz := hF.size x dr hd
  obtain ⟨px, ep, hp⟩ := C18_sdf (dr.sizeX + buffer * 2) (dr.sizeY + buffer * 2) (drawMask buffer dr) 8 (1 / 4) (by omega) (by omega)
    (by omega) (by omega) (fun i _ j _ => mask_le (hF.alpha x dr hd) i j)
  rw [ep] at hg
  simp only [Option.some.injEq] at hg
  subst hg
  have ea : drawMask buffer dr = around dr buffer := by
    funext i j
    unfold drawMask around
    rw [Nat.mul_comm]
    congr 2 <;> ring
  rw [ea] at hp
  rw [Nat.mul_comm buffer 2] at hp ⊢
  refine ⟨dr, hd, fun i hi j hj => ?_⟩
  obtain ⟨co, ci, h1, h2, h3⟩ := hp i hi j hj
  exact ⟨px i j, co, ci, sdfBytes_get _ _ _ hi hj, h1, h2, h3⟩

/-- The edge of a glyph stays where it was: a point of the mask at least half covered has a byte of at least 191, one at most half covered a
byte of at most 191. -/
theorem C19_edge (F : FontFace) (hF : FaceOk F) (buffer : Nat) (hb : 1 ≤ buffer) (hb' : buffer ≤ 100000000) (x : Int) (g : Glyph)
    (hg : glyph Real.sqrt buffer F x = some (some g)) :
    ∃ dr, F.draw x = some dr ∧ ∀ i < dr.sizeX + 2 * buffer, ∀ j < dr.sizeY + 2 * buffer, ∃ v,
      g.bitmap[i + j * (dr.sizeX + 2 * buffer)]? = some v ∧
      (128 ≤ dr.mask (dr.maskX + i - buffer) (dr.maskY + j - buffer) → 191 ≤ v) ∧
      (dr.mask (dr.maskX + i - buffer) (dr.maskY + j - buffer) ≤ 127 → v ≤ 191) := by
  unfold glyph at hg
  split at hg
  · cases hg
  split at hg
  · cases hg
  split at hg
  · cases hg
  rename_i dr hd
  split at hg
  · cases hg
  rename_i hs
  push Not at hs
  have hsz := hF.size x dr hd
  obtain ⟨px, ep, hp⟩ := C18_edge (dr.sizeX + buffer * 2) (dr.sizeY + buffer * 2) (drawMask buffer dr) (by omega) (by omega)
    (by omega) (by omega) (fun i _ j _ => mask_le (hF.alpha x dr hd) i j)
  rw [ep] at hg
  simp only [Option.some.injEq] at hg
  subst hg
  rw [Nat.mul_comm buffer 2] at hp ⊢
  refine ⟨dr, hd, fun i hi j hj => ⟨px i j, sdfBytes_get _ _ _ hi hj, ?_⟩⟩
  have ea : drawMask buffer dr i j = 257 * dr.mask (dr.maskX + i - buffer) (dr.maskY + j - buffer) := by
    unfold drawMask
    rw [Nat.mul_comm]
    congr 2 <;> ring
  obtain ⟨-, h1, h2⟩ := hp i hi j hj
  rw [ea] at h1 h2
  exact ⟨fun h => h1 (by omega), fun h => h2 (by omega)⟩

theorem rune_id {i : Int} (h0 : 0 ≤ i) (h1 : i < 2147483648) : rune i = i := by unfold rune; omega

open Classical in
/-- `Glyphs(min, max)` returns, in increasing order, one glyph for each drawable code point in `[min, max)`. -/
theorem C19_glyphs (F : FontFace) (hF : FaceOk F) (buffer : Nat) (hb : 1 ≤ buffer) (hb' : buffer ≤ 100000000)
    (min max : Int) (h0 : 0 ≤ min) (h1 : max ≤ 2147483648) :
    ∃ gs, glyphs Real.sqrt buffer F min max = some gs ∧
      List.Forall₂ (GlyphFor F buffer)
        (((List.range (max - min).toNat).map fun k : Nat => min + (k : Int)).filter fun x => decide (Drawable F x)) gs := by
  unfold glyphs
  have hl : ∀ x ∈ (List.range (max - min).toNat).map (fun k : Nat => min + (k : Int)), 0 ≤ x ∧ x < 2147483648 := by
    intro x hx
    simp only [List.mem_map, List.mem_range] at hx
    obtain ⟨k, hk, rfl⟩ := hx
    omega
  revert hl
  generalize (List.range (max - min).toNat).map (fun k : Nat => min + (k : Int)) = l
  intro hl
  induction l with
  | nil => exact ⟨[], rfl, List.Forall₂.nil⟩
  | cons i is ih =>
    obtain ⟨gs, e, hg⟩ := ih (fun x hx => hl x (List.mem_cons_of_mem _ hx))
    have hi := hl i (List.mem_cons_self ..)
    rcases C19_glyph F hF buffer hb hb' i hi.1 (by omega) with ⟨hn, eg⟩ | ⟨hn, g, eg, hgf⟩
    · refine ⟨gs, ?_, ?_⟩
      · simp only [glyphLoop, rune_id hi.1 hi.2, eg, e]; rfl
      · rw [List.filter_cons_of_neg (by simpa using hn)]; exact hg
    · refine ⟨g :: gs, ?_, ?_⟩
      · simp only [glyphLoop, rune_id hi.1 hi.2, eg, e]; rfl
      · rw [List.filter_cons_of_pos (by simpa using hn)]; exact List.Forall₂.cons hgf hg

/-- The ids are strictly increasing, in `[min, max)`, never 0, and are exactly the drawable code points there. -/
theorem C19_ids (F : FontFace) (hF : FaceOk F) (buffer : Nat) (hb : 1 ≤ buffer) (hb' : buffer ≤ 100000000)
    (min max : Int) (h0 : 0 ≤ min) (h1 : max ≤ 2147483648) :
    ∃ gs, glyphs Real.sqrt buffer F min max = some gs ∧ (gs.map (·.id)).Pairwise (· < ·) ∧
      ∀ x : Nat, x ∈ gs.map (·.id) ↔ (min ≤ x ∧ (x : Int) < max ∧ Drawable F x) := by
  classical
  obtain ⟨gs, e, hg⟩ := C19_glyphs F hF buffer hb hb' min max h0 h1
  refine ⟨gs, e, ?_⟩
  have hids : gs.map (fun g => (g.id : Int)) =
      ((List.range (max - min).toNat).map fun k : Nat => min + (k : Int)).filter fun x => decide (Drawable F x) := by
    generalize ((List.range (max - min).toNat).map fun k : Nat => min + (k : Int)).filter (fun x => decide (Drawable F x)) = l at hg
    clear e
    induction hg with
    | nil => rfl
    | cons h _ ih => rw [List.map_cons, ih, h.1]
  constructor
  · have : (gs.map (fun g => (g.id : Int))).Pairwise (· < ·) := by
      rw [hids]
      apply List.Pairwise.filter
      rw [List.pairwise_map]
      exact List.pairwise_lt_range.imp (by intro a b hab; omega)
    rw [List.pairwise_map] at this ⊢
    exact this.imp (by intro a b hab; omega)
  · intro x
    have : x ∈ gs.map (·.id) ↔ (x : Int) ∈ gs.map (fun g => (g.id : Int)) := by
      simp only [List.mem_map]
      constructor
      · rintro ⟨g, hg, e⟩; exact ⟨g, hg, by rw [e]⟩
      · rintro ⟨g, hg, e⟩; exact ⟨g, hg, by omega⟩
    rw [this, hids]
    simp only [List.mem_filter, List.mem_map, List.mem_range, decide_eq_true_eq]
    constructor
    · rintro ⟨⟨k, hk, e⟩, hd⟩
      exact ⟨by omega, by omega, hd⟩
    · rintro ⟨h2, h3, hd⟩
      exact ⟨⟨((x : Int) - min).toNat, by omega, by omega⟩, hd⟩

/-- a font meeting the hypotheses, with `A` drawable and `B` not -/
def sampleFace : FontFace :=
  ⟨fun x => if x = 65 then 1 else 0, fun x => if x = 65 then some ⟨1, -9, 4, 9, 6, 0, 32, fun i j => if 0 ≤ i ∧ i < 3 ∧ 32 ≤ j ∧ j < 41 then 255 else 0⟩ else none⟩

example : FaceOk sampleFace ∧ Drawable sampleFace 65 ∧ ¬ Drawable sampleFace 66 := by
  refine ⟨⟨?_, ?_⟩, ⟨by decide, by decide, _, rfl, by decide, by decide⟩, fun h => h.2.1 (by decide)⟩
  · intro x g h
    simp only [sampleFace] at h
    split at h
    · injection h with h; rw [← h]; decide
    · cases h
  · intro x g h i j
    simp only [sampleFace] at h
    split at h
    · injection h with h; rw [← h]; simp only; split <;> omega
    · cases h

/-! ## C64: DrawGlyph -/

theorem mapM_range_get {α β : Type} (l : List α) (f : α → β) (n : Nat) (h : n ≤ l.length) :
    (List.range n).mapM (fun i => (l[i]?).map f) = some ((l.take n).map f) := by
  induction n with
  | zero => rfl
  | succ n ih =>
    rw [List.range_succ, List.mapM_append, ih (by omega)]
    have hn : n < l.length := by omega
    simp only [List.mapM_cons, List.getElem?_eq_getElem hn, Option.map_some, List.mapM_nil]
    rw [List.take_add_one, List.map_append, List.getElem?_eq_getElem hn]
    rfl

/-- Glyphs built with a buffer of 3 are drawn without a panic; without `smoothstep` the image's alphas are the
bitmap. -/
theorem C64_draw (F : FontFace) (x : Int) (g : Glyph) (hg : GlyphFor F 3 x g) :
    drawGlyph ℝ g false = some g.bitmap ∧
    drawGlyph ℝ g true = some (g.bitmap.map fun a : Nat => smooth (136 : ℝ) 168 a) := by
  obtain ⟨-, dr, -, hw, hh, -, -, -, hl, -⟩ := hg
  have hl' : (g.height + 6) * (g.width + 6) = g.bitmap.length := by
    rw [hl, hw, hh, Nat.mul_comm]
  constructor
  · simp only [drawGlyph, Bool.false_eq_true, if_false]
    rw [mapM_range_get _ (fun a => a) _ (by omega), hl']
    simp
  · simp only [drawGlyph, if_true]
    rw [mapM_range_get _ (fun a : Nat => smooth (136 : ℝ) 168 a) _ (by omega), hl', List.take_length]

theorem mapM_none_of_mem {α β : Type} (f : α → Option β) (l : List α) (a : α) (h : a ∈ l) (hn : f a = none) :
    l.mapM f = none := by
  induction l with
  | nil => cases h
  | cons b l ih =>
    rw [List.mapM_cons]
    rcases List.mem_cons.1 h with e | e
    · rw [← e, hn]; rfl
    · rw [ih e]; cases f b <;> rfl

/-- Glyphs built with a smaller buffer make it panic. -/
theorem C64_small_buffer_panics (F : FontFace) (buffer : Nat) (hb : buffer < 3) (x : Int) (g : Glyph)
    (hg : GlyphFor F buffer x g) (st : Bool) : drawGlyph ℝ g st = none := by
  obtain ⟨-, dr, -, hw, hh, -, -, -, hl, -⟩ := hg
  have hl' : g.bitmap.length < (g.height + 6) * (g.width + 6) := by
    rw [hl, hw, hh, Nat.mul_comm (dr.sizeY + 6)]
    apply Nat.mul_lt_mul'' <;> omega
  unfold drawGlyph
  exact mapM_none_of_mem _ _ g.bitmap.length (List.mem_range.2 hl') (by simp)

section
variable {K : Type} [Field K] [LinearOrder K] [IsStrictOrderedRing K] [FloorRing K]

theorem smooth_poly_mono {a b : K} (h0 : 0 ≤ a) (h : a ≤ b) (h1 : b ≤ 1) : a * a * (3 - 2 * a) ≤ b * b * (3 - 2 * b) := by
  nlinarith [mul_nonneg (sub_nonneg.2 h) (mul_nonneg h0 (sub_nonneg.2 (h.trans h1))),
    mul_nonneg (sub_nonneg.2 h) (mul_nonneg (h0.trans h) (sub_nonneg.2 h1)),
    mul_nonneg (sub_nonneg.2 h) (mul_nonneg h0 (sub_nonneg.2 h1)),
    mul_nonneg (sub_nonneg.2 h) (mul_nonneg (h0.trans h) (sub_nonneg.2 (h.trans h1)))]

/-- The smooth step: 0 up to the upper edge 168, the byte itself from 200 on (the edge is subtracted where the
lower edge should be, so the ramp is 168..200 instead of 136..168), and monotone in between, never above the
byte. -/
theorem C64_smooth (x : Nat) :
    (x ≤ 168 → smooth (136 : K) 168 x = 0) ∧ (200 ≤ x → smooth (136 : K) 168 x = x) ∧ smooth (136 : K) 168 x ≤ x ∧
    ∀ y : Nat, x ≤ y → smooth (136 : K) 168 x ≤ smooth (136 : K) 168 y := by
  have hx0 : (0 : K) ≤ x := Nat.cast_nonneg x
  have hval : ∀ y : Nat, 0 ≤ max (min (((y : K) - 168) / (168 - 136)) 1) 0 ∧ max (min (((y : K) - 168) / (168 - 136)) 1) 0 ≤ 1 :=
    fun y => ⟨le_max_right _ _, max_le (min_le_right _ _) (by norm_num)⟩
  refine ⟨fun h => ?_, fun h => ?_, ?_, fun y hy => ?_⟩
  · have h' : (x : K) ≤ 168 := by exact_mod_cast h
    have : max (min (((x : K) - 168) / (168 - 136)) 1) 0 = 0 :=
      max_eq_right (min_le_of_left_le (div_nonpos_of_nonpos_of_nonneg (by linarith) (by norm_num)))
    simp only [smooth, this]
    simp
  · have h' : (200 : K) ≤ x := by exact_mod_cast h
    have h2 : min (((x : K) - 168) / (168 - 136)) 1 = 1 := by
      apply min_eq_right
      rw [le_div_iff₀ (by norm_num)]; linarith
    have : max (min (((x : K) - 168) / (168 - 136)) 1) 0 = 1 := by rw [h2]; exact max_eq_left (by norm_num)
    simp only [smooth, this]
    norm_num
  · obtain ⟨h0, h1⟩ := hval x
    simp only [smooth]
    generalize max (min (((x : K) - 168) / (168 - 136)) 1) 0 = a at h0 h1
    rw [Int.toNat_le]
    have : a * a * (3 - 2 * a) ≤ 1 := by
      have := smooth_poly_mono h0 h1 (le_refl 1)
      linarith
    have h2 : a * a * (3 - 2 * a) * (x : K) ≤ x := by nlinarith
    have : ⌊a * a * (3 - 2 * a) * (x : K)⌋ ≤ ⌊((x : ℤ) : K)⌋ := Int.floor_le_floor (by simpa using h2)
    rwa [Int.floor_intCast] at this
  · have hxy : (x : K) ≤ y := by exact_mod_cast hy
    obtain ⟨h0, h1⟩ := hval x
    obtain ⟨g0, g1⟩ := hval y
    have hab : max (min (((x : K) - 168) / (168 - 136)) 1) 0 ≤ max (min (((y : K) - 168) / (168 - 136)) 1) 0 := by
      apply max_le_max _ (le_refl _)
      apply min_le_min _ (le_refl _)
      apply div_le_div_of_nonneg_right _ (by norm_num)
      linarith
    simp only [smooth]
    generalize max (min (((x : K) - 168) / (168 - 136)) 1) 0 = a at *
    generalize max (min (((y : K) - 168) / (168 - 136)) 1) 0 = b at *
    apply Int.toNat_le_toNat
    apply Int.floor_le_floor
    have hp := smooth_poly_mono h0 hab g1
    have h3 : 0 ≤ a * a * (3 - 2 * a) := mul_nonneg (mul_self_nonneg _) (by linarith)
    exact mul_le_mul hp hxy hx0 (h3.trans hp)

end

end Verif.Font
