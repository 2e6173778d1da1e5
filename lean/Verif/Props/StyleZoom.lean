import Verif.Proof.StyleZoom

/-!
# C50, C51, C54: zoom functions of style properties, layer validation

`numValue A stops base z` is `NumericFunctionType{Base: base, Stops: stops}.GetValueAtZoomLevel(z)`;
`colValue` the same for colour stops.  `A` is the arithmetic: theorems for every `A` with `A.Ok` hold for
float64 (`C50_float64_applies`), theorems about `exact` are over the reals.
-/
namespace Verif.Style

variable {K : Type} [Field K] [LinearOrder K] [IsStrictOrderedRing K] [FloorRing K]
set_option linter.unusedSectionVars false

/-- The stops' zooms increase. -/
def Increasing (stops : List (NumStop K)) : Prop := stops.Pairwise (fun a b => a.zoom < b.zoom)

/-- How far the zoom `z` is on the way from `lo` to `hi`, by the style specification: linear for base 1,
`(base^(z-lo) - 1) / (base^(hi-lo) - 1)` otherwise. -/
noncomputable def specProgress (base lo hi z : ℝ) : ℝ :=
  if base = 1 then (z - lo) / (hi - lo) else (base ^ (z - lo) - 1) / (base ^ (hi - lo) - 1)

/-- float64 arithmetic meets `Arith.Ok`, whatever monotone `Pow` it is given. -/
theorem C50_float64_applies (pow : ℚ → ℚ → ℚ) (h0 : ∀ b, pow b 0 = 1)
    (hm : ∀ {b x y : ℚ}, 1 ≤ b → 0 ≤ x → x ≤ y → pow b x ≤ pow b y)
    (ha : ∀ {b x y : ℚ}, 0 ≤ b → b ≤ 1 → 0 ≤ x → x ≤ y → pow b y ≤ pow b x) :
    (⟨F64.rnd, pow⟩ : Arith ℚ).Ok ∧ ∀ n : ℤ, |n| ≤ 255 → F64.rnd (n : ℚ) = n :=
  ⟨float_ok pow h0 hm ha, fun n hn => F64.rnd_int n (hn.trans (by norm_num))⟩

example : (⟨F64.rnd, fun b x => if x = 0 then 1 else b⟩ : Arith ℚ).Ok := by
  apply float_ok
  · simp
  · intro b x y hb hx h
    split_ifs with h1 h2 h2 <;> first | exact le_rfl | exact hb | exact absurd (le_antisymm (h.trans h2.le) hx) h1
  · intro b x y hb hb1 hx h
    split_ifs with h1 h2 h2 <;> first | exact le_rfl | exact hb1 | exact absurd (le_antisymm (h.trans h1.le) hx) h2

/-- Below the first stop the value is 0. -/
theorem C50_below_first (A : Arith K) (s : NumStop K) (rest : List (NumStop K)) (base : Option K) (z : K)
    (h : z < s.zoom) : numValue A (s :: rest) base z = .ok 0 := by
  simp [numValue, h]

/-- At a stop the value is that stop's value, in any arithmetic that represents it. -/
theorem C50_at_stop {A : Arith K} (hA : A.Ok) (pre post : List (NumStop K)) (s : NumStop K)
    (base : Option K) (hinc : Increasing (pre ++ s :: post)) (hv : A.rnd s.value = s.value) :
    numValue A (pre ++ s :: post) base s.zoom = .ok s.value := by
  unfold Increasing at hinc
  have hpre : ∀ t ∈ pre, t.zoom < s.zoom := fun t ht =>
    (List.pairwise_append.1 hinc).2.2 t ht s (by simp)
  have hpost : ∀ t ∈ post, s.zoom < t.zoom :=
    (List.pairwise_cons.1 (List.pairwise_append.1 hinc).2.1).1
  cases hc : pre ++ s :: post with
  | nil => simp at hc
  | cons f r =>
    have hf : f.zoom ≤ s.zoom := by
      cases pre with
      | nil => simp at hc; simp [hc.1]
      | cons p pre => simp at hc; rw [← hc.1]; exact (hpre p (by simp)).le
    rw [numValue]
    simp only [not_lt.2 hf, if_false]
    congr 1
    cases post with
    | nil =>
      rw [numLoop_last base s.zoom r f]
      · simp only [← hc]; simp
      · intro t ht
        have : t ∈ pre ++ [s] := by rw [hc]; simp [ht]
        rcases List.mem_append.1 this with h | h
        · exact (hpre t h).le
        · simp at h; rw [h]
    | cons n post =>
      rw [numLoop_segment base s.zoom s n post (hpost n (by simp)) pre f r hc.symm]
      · exact numBetween_start hA s n base hv
      · intro t ht
        rcases List.mem_append.1 ht with h | h
        · exact (hpre t h).le
        · simp at h; rw [h]

/-- Beyond the last stop the value is the last stop's. -/
theorem C50_beyond_last (A : Arith K) (pre : List (NumStop K)) (s : NumStop K) (base : Option K) (z : K)
    (hinc : Increasing (pre ++ [s])) (h : s.zoom ≤ z) : numValue A (pre ++ [s]) base z = .ok s.value := by
  have hpre : ∀ t ∈ pre, t.zoom < s.zoom := fun t ht =>
    (List.pairwise_append.1 hinc).2.2 t ht s (by simp)
  cases hc : pre ++ [s] with
  | nil => simp at hc
  | cons f r =>
    have hall : ∀ t ∈ f :: r, t.zoom ≤ z := by
      intro t ht
      rw [← hc] at ht
      rcases List.mem_append.1 ht with h1 | h1
      · exact (hpre t h1).le.trans h
      · simp at h1; rw [h1]; exact h
    rw [numValue]
    simp only [not_lt.2 (hall f (by simp)), if_false]
    congr 1
    rw [numLoop_last base z r f (fun t ht => hall t (by simp [ht]))]
    simp only [← hc]; simp

/-- Between two stops the value is the first stop's value plus the style specification's progress times
the ABSOLUTE difference of the two values (exact arithmetic, every base ≥ 0, nil meaning 1). -/
theorem C50_between (pre post : List (NumStop ℝ)) (a b : NumStop ℝ) (base : Option ℝ) (z : ℝ)
    (hinc : Increasing (pre ++ a :: b :: post)) (h0 : a.zoom ≤ z) (h1 : z < b.zoom) :
    numValue exact (pre ++ a :: b :: post) base z =
      .ok (a.value + specProgress (base.getD 1) a.zoom b.zoom z * |b.value - a.value|) := by
  have hpre : ∀ t ∈ pre, t.zoom < a.zoom := fun t ht =>
    (List.pairwise_append.1 hinc).2.2 t ht a (by simp)
  cases hc : pre ++ a :: b :: post with
  | nil => simp at hc
  | cons f r =>
    have hf : f.zoom ≤ z := by
      cases pre with
      | nil => simp at hc; rw [← hc.1]; exact h0
      | cons p pre => simp at hc; rw [← hc.1]; exact (hpre p (by simp)).le.trans h0
    rw [numValue]
    simp only [not_lt.2 hf, if_false]
    rw [numLoop_segment base z a b post h1 pre f r hc.symm, numBetween_exact,
      expPct_exact _ _ (h0.trans_lt h1)]
    · rfl
    · intro t ht
      rcases List.mem_append.1 ht with h | h
      · exact (hpre t h).le.trans h0
      · simp at h; rw [h]; exact h0

/-- For non-decreasing stop values the result lies between the two neighbouring stops' values. -/
theorem C50_within (pre post : List (NumStop ℝ)) (a b : NumStop ℝ) (base : Option ℝ) (z v : ℝ)
    (hb : 0 ≤ base.getD 1) (hinc : Increasing (pre ++ a :: b :: post)) (h0 : a.zoom ≤ z)
    (h1 : z < b.zoom) (hab : a.value ≤ b.value)
    (hv : numValue exact (pre ++ a :: b :: post) base z = .ok v) : a.value ≤ v ∧ v ≤ b.value := by
  rw [C50_between pre post a b base z hinc h0 h1] at hv
  have e := Except.ok.inj hv
  have hlt := h0.trans_lt h1
  have n0 := expPct_nonneg exact_ok hb (exact_proper hb hlt) h0 h1.le
  have n1 := expPct_le_one exact_ok hb (exact_proper hb hlt) h0 h1.le
  rw [expPct_exact _ _ hlt] at n0 n1
  rw [abs_of_nonneg (sub_nonneg.2 hab)] at e
  unfold specProgress at e
  rw [← e]
  constructor <;> nlinarith

/-- For increasing zooms and non-decreasing values the function is monotone from the first stop on. -/
theorem C50_monotone (s : NumStop ℝ) (rest : List (NumStop ℝ)) (base : Option ℝ) (hb : 0 ≤ base.getD 1)
    (hinc : Increasing (s :: rest)) (hval : (s :: rest).Pairwise (fun a b => a.value ≤ b.value))
    (z z' : ℝ) (h0 : s.zoom ≤ z) (h : z ≤ z') : ∃ v v', numValue exact (s :: rest) base z = .ok v ∧
      numValue exact (s :: rest) base z' = .ok v' ∧ s.value ≤ v ∧ v ≤ v' := by
  have := numLoop_mono hb h rest s hinc hval h0
  refine ⟨_, _, ?_, ?_, this.1, this.2⟩
  · simp [numValue, not_lt.2 h0]
  · simp [numValue, not_lt.2 (h0.trans h)]

/-- Within one segment the function is monotone in float64 arithmetic too (for a base for which the
denominator does not round to 0), whatever the stop values. -/
theorem C50_monotone_segment {A : Arith K} (hA : A.Ok) (pre post : List (NumStop K)) (a b : NumStop K)
    (base : Option K) (hb : 0 ≤ base.getD 1) (hp : Proper A a.zoom b.zoom (base.getD 1))
    (hinc : Increasing (pre ++ a :: b :: post)) (z z' : K) (h0 : a.zoom ≤ z) (h : z ≤ z') (h1 : z' < b.zoom) :
    ∃ v v', numValue A (pre ++ a :: b :: post) base z = .ok v ∧
      numValue A (pre ++ a :: b :: post) base z' = .ok v' ∧ v ≤ v' := by
  have hpre : ∀ t ∈ pre, t.zoom < a.zoom := fun t ht =>
    (List.pairwise_append.1 hinc).2.2 t ht a (by simp)
  have key : ∀ w, a.zoom ≤ w → w < b.zoom →
      numValue A (pre ++ a :: b :: post) base w = .ok (numBetween A a b w base) := by
    intro w hw0 hw1
    cases hc : pre ++ a :: b :: post with
    | nil => simp at hc
    | cons f r =>
      have hf : f.zoom ≤ w := by
        cases pre with
        | nil => simp at hc; rw [← hc.1]; exact hw0
        | cons p pre => simp at hc; rw [← hc.1]; exact (hpre p (by simp)).le.trans hw0
      rw [numValue]
      simp only [not_lt.2 hf, if_false]
      rw [numLoop_segment base w a b post hw1 pre f r hc.symm]
      intro t ht
      rcases List.mem_append.1 ht with h | h
      · exact (hpre t h).le.trans hw0
      · simp at h; rw [h]; exact hw0
  exact ⟨_, _, key z h0 (h.trans_lt h1), key z' (h0.trans h) h1, numBetween_mono hA hb hp h0 h h1.le⟩

/-- For decreasing values the result is wrong at every zoom strictly between the two stops: it rises above
the higher value instead of falling towards the lower one. -/
theorem C50_decreasing_wrong (pre post : List (NumStop ℝ)) (a b : NumStop ℝ) (base : Option ℝ) (z v : ℝ)
    (hb : 0 ≤ base.getD 1) (hinc : Increasing (pre ++ a :: b :: post)) (h0 : a.zoom < z)
    (h1 : z < b.zoom) (hab : b.value < a.value)
    (hv : numValue exact (pre ++ a :: b :: post) base z = .ok v) : b.value < a.value ∧ a.value < v := by
  rw [C50_between pre post a b base z hinc h0.le h1] at hv
  have e := Except.ok.inj hv
  have n0 := expPct_pos_exact hb h0 h1
  rw [expPct_exact _ _ (h0.trans h1)] at n0
  have : 0 < |b.value - a.value| := abs_pos.2 (by linarith)
  refine ⟨hab, ?_⟩
  rw [← e]
  unfold specProgress
  nlinarith

/-- An empty stop list panics; an absent property is 0; a plain number is the same at every zoom. -/
theorem C50_degenerate (A : Arith K) (base : Option K) (z v : K) :
    numValue A [] base z = .error .panic ∧ (NumProp.absent (K := K)).at A z = .ok 0 ∧
      (NumProp.plain v).at A z = .ok v := ⟨rfl, rfl, rfl⟩

/-- a line width 1 at zoom 5, 2 at zoom 10, 9 at zoom 15 -/
example : Increasing [(⟨5, 1⟩ : NumStop ℝ), ⟨10, 2⟩, ⟨15, 9⟩] ∧
    [(⟨5, 1⟩ : NumStop ℝ), ⟨10, 2⟩, ⟨15, 9⟩].Pairwise (fun a b => a.value ≤ b.value) ∧
    numValue exact [⟨5, 1⟩, ⟨10, 2⟩, ⟨15, 9⟩] none 12 = .ok (2 + 2 / 5 * 7) := by
  have hi : Increasing [(⟨5, 1⟩ : NumStop ℝ), ⟨10, 2⟩, ⟨15, 9⟩] := by unfold Increasing; norm_num
  refine ⟨hi, by norm_num, ?_⟩
  have := C50_between [⟨5, 1⟩] [] ⟨10, 2⟩ ⟨15, 9⟩ none 12 hi (by norm_num) (by norm_num)
  rw [show [(⟨5, 1⟩ : NumStop ℝ)] ++ [⟨10, 2⟩, ⟨15, 9⟩] = [⟨5, 1⟩, ⟨10, 2⟩, ⟨15, 9⟩] from rfl] at this
  rw [this]; simp only [specProgress, Option.getD_none]; norm_num

/-! ## C51 colours -/

/-- The stops' zooms increase. -/
def ColIncreasing (stops : List (ColStop K)) : Prop := stops.Pairwise (fun a b => a.zoom < b.zoom)

/-- Below the first stop there is no colour. -/
theorem C51_below_first (A : Arith K) (s : ColStop K) (rest : List (ColStop K)) (base : Option K) (z : K)
    (h : z < s.zoom) : colValue A (s :: rest) base z = .ok (.color .nil) := by
  simp [colValue, h]

/-- Beyond the last stop (and at it) the colour is the last stop's, of whatever kind. -/
theorem C51_beyond_last (A : Arith K) (pre : List (ColStop K)) (s : ColStop K) (base : Option K) (z : K)
    (hinc : ColIncreasing (pre ++ [s])) (h : s.zoom ≤ z) :
    colValue A (pre ++ [s]) base z = .ok (.color s.color) := by
  have hpre : ∀ t ∈ pre, t.zoom < s.zoom := fun t ht =>
    (List.pairwise_append.1 hinc).2.2 t ht s (by simp)
  cases hc : pre ++ [s] with
  | nil => simp at hc
  | cons f r =>
    have hall : ∀ t ∈ f :: r, t.zoom ≤ z := by
      intro t ht
      rw [← hc] at ht
      rcases List.mem_append.1 ht with h1 | h1
      · exact (hpre t h1).le.trans h
      · simp at h1; rw [h1]; exact h
    rw [colValue]
    simp only [not_lt.2 (hall f (by simp)), if_false]
    rw [colLoop_last base z r f (fun t ht => hall t (by simp [ht]))]
    simp only [← hc]; simp

theorem colValue_segment (A : Arith K) (pre post : List (ColStop K)) (a b : ColStop K) (base : Option K)
    (z : K) (hinc : ColIncreasing (pre ++ a :: b :: post)) (h0 : a.zoom ≤ z) (h1 : z < b.zoom) :
    colValue A (pre ++ a :: b :: post) base z = colBlend A base z a b := by
  have hpre : ∀ t ∈ pre, t.zoom < a.zoom := fun t ht =>
    (List.pairwise_append.1 hinc).2.2 t ht a (by simp)
  cases hc : pre ++ a :: b :: post with
  | nil => simp at hc
  | cons f r =>
    have hf : f.zoom ≤ z := by
      cases pre with
      | nil => simp at hc; rw [← hc.1]; exact h0
      | cons p pre => simp at hc; rw [← hc.1]; exact (hpre p (by simp)).le.trans h0
    rw [colValue]
    simp only [not_lt.2 hf, if_false]
    rw [colLoop_segment base z a b post h1 pre f r hc.symm]
    intro t ht
    rcases List.mem_append.1 ht with h | h
    · exact (hpre t h).le.trans h0
    · simp at h; rw [h]; exact h0

/-- `v` is a channel between the channels `x` and `y` of two stops. -/
def Between (x y : Nat) (v : Option Nat) : Prop := ∃ n, v = some n ∧ min x y ≤ n ∧ n ≤ max x y

/-- Between two `color.RGBA` stops every channel lies between the stops' channels, so the conversion to a
byte is always defined — in any arithmetic that represents the integers up to 255, float64 included. -/
theorem C51_between {A : Arith K} (hA : A.Ok) (hi : ∀ n : ℤ, |n| ≤ 255 → A.rnd (n : K) = n)
    (pre post : List (ColStop K)) (z1 z2 : K) (r g b a r' g' b' a' : Nat) (base : Option K) (z : K)
    (hb : 0 ≤ base.getD 1) (hp : Proper A z1 z2 (base.getD 1))
    (hinc : ColIncreasing (pre ++ ⟨z1, .rgba r g b a⟩ :: ⟨z2, .rgba r' g' b' a'⟩ :: post))
    (h0 : z1 ≤ z) (h1 : z < z2)
    (hc : r ≤ 255 ∧ g ≤ 255 ∧ b ≤ 255 ∧ a ≤ 255 ∧ r' ≤ 255 ∧ g' ≤ 255 ∧ b' ≤ 255 ∧ a' ≤ 255) :
    ∃ vr vg vb va, colValue A (pre ++ ⟨z1, .rgba r g b a⟩ :: ⟨z2, .rgba r' g' b' a'⟩ :: post) base z
        = .ok (.blend vr vg vb va) ∧
      Between r r' vr ∧ Between g g' vg ∧ Between b b' vb ∧ Between a a' va := by
  rw [colValue_segment A pre post _ _ base z hinc h0 h1]
  have n0 := expPct_nonneg hA hb hp h0 h1.le
  have n1 := expPct_le_one hA hb hp h0 h1.le
  have key : ∀ x y : Nat, x ≤ 255 → y ≤ 255 →
      Between x y (colBetween A (expPct A z z1 z2 (base.getD 1)) x y) := by
    intro x y hx hy
    obtain ⟨v, e, l, u, _⟩ := colBetween_spec hA hi n0 n1 hx hy
    exact ⟨v, e, l, u⟩
  obtain ⟨c1, c2, c3, c4, c5, c6, c7, c8⟩ := hc
  exact ⟨_, _, _, _, rfl, key r r' c1 c5, key g g' c2 c6, key b b' c3 c7, key a a' c4 c8⟩

/-- The exact channel: `this + floor((next - this) * progress)`, rounding towards the darker side. -/
theorem C51_between_value (pre post : List (ColStop ℝ)) (z1 z2 : ℝ) (r g b a r' g' b' a' : Nat)
    (base : Option ℝ) (z : ℝ) (hb : 0 ≤ base.getD 1)
    (hinc : ColIncreasing (pre ++ ⟨z1, .rgba r g b a⟩ :: ⟨z2, .rgba r' g' b' a'⟩ :: post))
    (h0 : z1 ≤ z) (h1 : z < z2)
    (hc : r ≤ 255 ∧ g ≤ 255 ∧ b ≤ 255 ∧ a ≤ 255 ∧ r' ≤ 255 ∧ g' ≤ 255 ∧ b' ≤ 255 ∧ a' ≤ 255) :
    ∃ vr vg vb va : Nat,
      colValue exact (pre ++ ⟨z1, .rgba r g b a⟩ :: ⟨z2, .rgba r' g' b' a'⟩ :: post) base z
        = .ok (.blend (some vr) (some vg) (some vb) (some va)) ∧
      (vr : ℤ) = r + ⌊((r' : ℝ) - r) * specProgress (base.getD 1) z1 z2 z⌋ ∧
      (vg : ℤ) = g + ⌊((g' : ℝ) - g) * specProgress (base.getD 1) z1 z2 z⌋ ∧
      (vb : ℤ) = b + ⌊((b' : ℝ) - b) * specProgress (base.getD 1) z1 z2 z⌋ ∧
      (va : ℤ) = a + ⌊((a' : ℝ) - a) * specProgress (base.getD 1) z1 z2 z⌋ := by
  rw [colValue_segment exact pre post _ _ base z hinc h0 h1]
  have hlt := h0.trans_lt h1
  have n0 := expPct_nonneg exact_ok hb (exact_proper hb hlt) h0 h1.le
  have n1 := expPct_le_one exact_ok hb (exact_proper hb hlt) h0 h1.le
  have key : ∀ x y : Nat, x ≤ 255 → y ≤ 255 → ∃ v : Nat,
      colBetween exact (expPct exact z z1 z2 (base.getD 1)) x y = some v ∧
      (v : ℤ) = x + ⌊((y : ℝ) - x) * specProgress (base.getD 1) z1 z2 z⌋ := by
    intro x y hx hy
    obtain ⟨v, e, _, _, u⟩ := colBetween_spec exact_ok (fun n _ => rfl) n0 n1 hx hy
    refine ⟨v, e, ?_⟩
    rw [u, expPct_exact _ _ hlt, add_comm]
    unfold specProgress
    simp only [exact, id]
    push_cast; rfl
  obtain ⟨c1, c2, c3, c4, c5, c6, c7, c8⟩ := hc
  obtain ⟨vr, er, ur⟩ := key r r' c1 c5
  obtain ⟨vg, eg, ug⟩ := key g g' c2 c6
  obtain ⟨vb, eb, ub⟩ := key b b' c3 c7
  obtain ⟨va, ea, ua⟩ := key a a' c4 c8
  refine ⟨vr, vg, vb, va, ?_, ur, ug, ub, ua⟩
  simp only [colBlend, er, eg, eb, ea]

/-- At a stop that is not the last the colour is that stop's, if it and its successor are `color.RGBA`. -/
theorem C51_at_stop {A : Arith K} (hA : A.Ok) (hi : ∀ n : ℤ, |n| ≤ 255 → A.rnd (n : K) = n)
    (pre post : List (ColStop K)) (z1 z2 : K) (r g b a r' g' b' a' : Nat) (base : Option K)
    (hinc : ColIncreasing (pre ++ ⟨z1, .rgba r g b a⟩ :: ⟨z2, .rgba r' g' b' a'⟩ :: post))
    (hc : r ≤ 255 ∧ g ≤ 255 ∧ b ≤ 255 ∧ a ≤ 255 ∧ r' ≤ 255 ∧ g' ≤ 255 ∧ b' ≤ 255 ∧ a' ≤ 255) :
    colValue A (pre ++ ⟨z1, .rgba r g b a⟩ :: ⟨z2, .rgba r' g' b' a'⟩ :: post) base z1
        = .ok (.blend (some r) (some g) (some b) (some a)) := by
  have hlt : z1 < z2 := by
    have := (List.pairwise_append.1 hinc).2.1
    exact (List.pairwise_cons.1 this).1 ⟨z2, .rgba r' g' b' a'⟩ (by simp)
  rw [colValue_segment A pre post _ _ base z1 hinc le_rfl hlt]
  have key : ∀ x y : Nat, x ≤ 255 → y ≤ 255 →
      colBetween A (expPct A z1 z1 z2 (base.getD 1)) x y = some x := by
    intro x y hx hy
    rw [expPct_self hA]
    obtain ⟨v, e, _, _, u⟩ := colBetween_spec hA hi le_rfl zero_le_one hx hy
    rw [e]; rw [mul_zero, hA.rnd_zero, Int.floor_zero] at u
    congr 1; omega
  obtain ⟨c1, c2, c3, c4, c5, c6, c7, c8⟩ := hc
  simp only [colBlend, key r r' c1 c5, key g g' c2 c6, key b b' c3 c7, key a a' c4 c8]

/-- A stop colour written as `hsl(...)` (or absent) makes every zoom in a neighbouring segment panic. -/
theorem C51_hsl_panics (A : Arith K) (pre post : List (ColStop K)) (s t : ColStop K) (base : Option K)
    (z : K) (hinc : ColIncreasing (pre ++ s :: t :: post)) (h0 : s.zoom ≤ z) (h1 : z < t.zoom)
    (hh : (∀ r g b a, s.color ≠ .rgba r g b a) ∨ (∀ r g b a, t.color ≠ .rgba r g b a)) :
    colValue A (pre ++ s :: t :: post) base z = .error .panic := by
  rw [colValue_segment A pre post s t base z hinc h0 h1]
  unfold colBlend
  simp only
  split
  · rename_i h2 h3
    rcases hh with h | h
    · exact absurd h2 (h _ _ _ _)
    · exact absurd h3 (h _ _ _ _)
  · rfl

/-- black at zoom 4 to grey at zoom 8, halfway -/
example : ColIncreasing [(⟨4, .rgba 0 0 0 255⟩ : ColStop ℚ), ⟨8, .rgba 101 100 7 255⟩] ∧
    Proper (⟨F64.rnd, fun _ _ => 1⟩ : Arith ℚ) 4 8 1 ∧
    colValue (⟨F64.rnd, fun _ _ => 1⟩ : Arith ℚ) [⟨4, .rgba 0 0 0 255⟩, ⟨8, .rgba 101 100 7 255⟩] none 6
      = .ok (.blend (some 50) (some 50) (some 3) (some 255)) := by
  refine ⟨by unfold ColIncreasing; decide +kernel, .inl rfl, by decide +kernel⟩

/-! ## C54 layer validation -/

/-- With both zooms given, validation succeeds exactly for `0 ≤ minzoom ≤ maxzoom ≤ 24`, and otherwise
returns an error. -/
theorem C54_validate (mn mx : K) :
    (layerValidate (some mn) (some mx) = .ok () ↔ 0 ≤ mn ∧ mn ≤ mx ∧ mx ≤ 24) ∧
    (layerValidate (some mn) (some mx) ≠ .ok () → layerValidate (some mn) (some mx) = .error .err) := by
  unfold layerValidate
  simp only [decide_eq_true_eq]
  by_cases h1 : mx < mn
  · simp [h1, not_le.2 h1]
  · have h1' := not_lt.1 h1
    simp only [h1, if_false]
    by_cases h2 : mx < 0 ∨ 24 < mx
    · simp only [h2, if_true]
      refine ⟨⟨fun h => by simp at h, fun ⟨a, b, c⟩ => ?_⟩, fun _ => trivial⟩
      exfalso; rcases h2 with h | h <;> linarith
    · push Not at h2
      simp only [not_lt.2 h2.1, not_lt.2 h2.2, or_self, if_false]
      by_cases h3 : mn < 0 ∨ 24 < mn
      · simp only [h3, if_true]
        refine ⟨⟨fun h => by simp at h, fun ⟨a, b, c⟩ => ?_⟩, fun _ => trivial⟩
        exfalso; rcases h3 with h | h <;> linarith
      · simp only [h3, if_false]
        push Not at h3
        exact ⟨⟨fun _ => ⟨h3.1, h1', h2.2⟩, fun _ => trivial⟩, fun h => absurd rfl h⟩

/-- With a zoom absent, validation never succeeds: it panics, unless the given maxzoom is itself out of
range. -/
theorem C54_absent_panics (mn mx : K) :
    layerValidate (none : Option K) none = .error .panic ∧ layerValidate (some mn) none = .error .panic ∧
    layerValidate none (some mx) = .error (if mx < 0 ∨ 24 < mx then .err else .panic) := by
  refine ⟨rfl, rfl, ?_⟩
  unfold layerValidate
  simp only [Bool.false_eq_true, if_false]
  split <;> rfl

example : layerValidate (some 3) (some 22 : Option ℚ) = .ok () ∧
    layerValidate (some 3) (some 2 : Option ℚ) = .error .err := by decide +kernel

end Verif.Style
