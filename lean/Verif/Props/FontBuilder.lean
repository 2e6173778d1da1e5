import Verif.Model.FontBuilder
import Verif.Props.Font
import Mathlib.Tactic.Linarith

/-!
# C79: the options of the SDF builder
-/
namespace Verif.Font

/-- Specification: the last entry that is not zero, or the default. -/
def lastSet (dflt : ℚ) (xs : List ℚ) : ℚ := ((xs.filter (· ≠ 0)).getLast?).getD dflt

theorem take_last (opts : List Opt) (b : Opt) :
    opts.foldl takeOpt b = ⟨lastSet b.fontSize (opts.map (·.fontSize)), lastSet b.buffer (opts.map (·.buffer))⟩ := by
  have step : ∀ (x d : ℚ) (xs : List ℚ), lastSet d (x :: xs) = lastSet (if x ≠ 0 then x else d) xs := by
    intro x d xs
    unfold lastSet
    by_cases h : x = 0
    · simp [h]
    · rw [if_pos h, List.filter_cons_of_pos (by simpa using h), List.getLast?_cons]
      rfl
  induction opts generalizing b with
  | nil => rfl
  | cons o os ih =>
    rw [List.foldl_cons, ih, List.map_cons, List.map_cons, step, step]
    rfl

theorem lastSet_ne {d : ℚ} (hd : d ≠ 0) (xs : List ℚ) : lastSet d xs ≠ 0 := by
  unfold lastSet
  cases h : (xs.filter (· ≠ 0)).getLast? with
  | none => simpa using hd
  | some x =>
    have := List.mem_of_getLast? h
    simpa using (List.mem_filter.1 this).2

theorem lastSet_default (d : ℚ) (xs : List ℚ) : (if lastSet 0 xs = 0 then d else lastSet 0 xs) = lastSet d xs := by
  unfold lastSet
  cases h : (xs.filter (· ≠ 0)).getLast? with
  | none => simp
  | some x =>
    have := List.mem_of_getLast? h
    have hx : x ≠ 0 := by simpa using (List.mem_filter.1 this).2
    simp [hx]

/-- **C79.** `NewSDFBuilder` uses for the font size, and separately for the buffer, the last option that sets it (is not zero), and 64 and 3
if none does. -/
theorem C79_options (opts : List Opt) :
    (newSDFBuilder opts).fontSize = lastSet 64 (opts.map (·.fontSize)) ∧
    (newSDFBuilder opts).buffer = lastSet 3 (opts.map (·.buffer)) := by
  unfold newSDFBuilder initOpt
  rw [take_last]
  exact ⟨lastSet_default _ _, lastSet_default _ _⟩

/-- **C79.** Without a buffer option every drawable glyph comes with the 3 pixel border that `DrawGlyph` expects: its bitmap has
(width + 6) * (height + 6) bytes and `DrawGlyph` shows exactly it. -/
theorem C79_default_draws (opts : List Opt) (ho : ∀ o ∈ opts, o.buffer = 0) (F : FontFace) (hF : FaceOk F) (x : Int) (h0 : 0 ≤ x)
    (h1 : x < 4294967296) (hd : Drawable F x) :
    ∃ g, glyph Real.sqrt (bufferInt (newSDFBuilder opts)).toNat F x = some (some g) ∧
      g.bitmap.length = (g.width + 6) * (g.height + 6) ∧ drawGlyph ℝ g false = some g.bitmap := by
  have hb : (bufferInt (newSDFBuilder opts)).toNat = 3 := by
    have : (newSDFBuilder opts).buffer = 3 := by
      rw [(C79_options opts).2, lastSet, List.filter_eq_nil_iff.2]
      · rfl
      · intro a ha
        obtain ⟨o, h, e⟩ := List.mem_map.1 ha
        simp [← e, ho o h]
    unfold bufferInt
    rw [this]
    norm_num
    rfl
  rw [hb]
  rcases C19_glyph F hF 3 (by norm_num) (by norm_num) x h0 h1 with ⟨h, -⟩ | ⟨-, g, e, hg⟩
  · exact absurd hd h
  · refine ⟨g, e, ?_, (C64_draw F x g hg).1⟩
    obtain ⟨-, dr, -, hw, hh, -, -, -, hl, -⟩ := hg
    rw [hl, hw, hh]

/-- **C79.** The border is the buffer without its fraction: 0 up to the buffer, less than one pixel short of it (from below for negative buffers). -/
theorem C79_border (b : Opt) : (0 ≤ b.buffer → (bufferInt b : ℚ) ≤ b.buffer ∧ b.buffer < bufferInt b + 1 ∧ 0 ≤ bufferInt b) ∧
    (b.buffer < 0 → b.buffer ≤ bufferInt b ∧ (bufferInt b : ℚ) < b.buffer + 1 ∧ bufferInt b ≤ 0) := by
  unfold bufferInt
  constructor
  · intro h
    rw [if_pos h]
    exact ⟨Int.floor_le _, Int.lt_floor_add_one _, Int.floor_nonneg.2 h⟩
  · intro h
    rw [if_neg (not_le.2 h)]
    exact ⟨Int.le_ceil _, Int.ceil_lt_add_one _, Int.ceil_le.2 (by simpa using h.le)⟩

/-- **C79.** With a buffer from 1 to 100 000 000 pixels every drawable glyph has a bitmap with this border on all sides. -/
theorem C79_bitmap (opts : List Opt) (h1 : 1 ≤ lastSet 3 (opts.map (·.buffer))) (h2 : lastSet 3 (opts.map (·.buffer)) ≤ 100000000)
    (F : FontFace) (hF : FaceOk F) (x : Int) (h0 : 0 ≤ x) (hx : x < 4294967296) (hd : Drawable F x) (k : Nat)
    (hk : (k : ℚ) ≤ lastSet 3 (opts.map (·.buffer)) ∧ lastSet 3 (opts.map (·.buffer)) < k + 1) :
    ∃ g, glyph Real.sqrt (bufferInt (newSDFBuilder opts)).toNat F x = some (some g) ∧
      g.bitmap.length = (g.width + 2 * k) * (g.height + 2 * k) := by
  have ho := (C79_options opts).2
  rw [← ho] at h1 h2 hk
  have hb : bufferInt (newSDFBuilder opts) = k := by
    unfold bufferInt
    rw [if_pos (by linarith), Int.floor_eq_iff]
    exact_mod_cast hk
  rw [hb, Int.toNat_natCast]
  have k1 : 1 ≤ k := by
    by_contra h
    have : k = 0 := by omega
    rw [this] at hk
    norm_num at hk
    linarith [hk.2]
  have k2 : k ≤ 100000000 := by
    have : (k : ℚ) ≤ 100000000 := by linarith [hk.1]
    exact_mod_cast this
  rcases C19_glyph F hF k k1 k2 x h0 hx with ⟨h, -⟩ | ⟨-, g, e, hg⟩
  · exact absurd hd h
  · refine ⟨g, e, ?_⟩
    obtain ⟨-, dr, -, hw, hh, -, -, -, hl, -⟩ := hg
    rw [hl, hw, hh]

/-- **C79.** The baseline is placed so that the space the line height leaves beside ascent and descent (whole pixels) is split evenly, up to
half a pixel, plus one pixel. -/
theorem C79_baseline (height ascent descent : Int) :
    |2 * (dotStartY height ascent descent - (height / 64 + descent / 64) - 1) - (height / 64 - (ascent / 64 + descent / 64))| ≤ 1 := by
  unfold dotStartY roundHalf floor26
  simp only
  generalize height / 64 = h
  generalize ascent / 64 = a
  generalize descent / 64 = d
  rw [abs_le]
  split <;> omega

/-- **C79.** `Coverage` fails exactly if one of the fonts cannot be parsed; otherwise it reports for every language, in order, the coverage by
the parsed fonts, so the count is the number of the language's characters that some font has. -/
theorem C79_coverage {T : Type} (parse : T → Option (List Nat)) (langs : List (List Nat)) (ttfs : List T) :
    (coverageOf parse langs ttfs = none ↔ ∃ f ∈ ttfs, parse f = none) ∧
    ∀ cs, coverageOf parse langs ttfs = some cs → ∃ points, List.Forall₂ (fun f p => parse f = some p) ttfs points ∧
      List.Forall₂ (fun e c => c.total = e.length ∧ c.count = (covered e points).length ∧ c.coverages.length = ttfs.length) langs cs := by
  have key : ∀ ttfs : List T, (ttfs.mapM parse = none ↔ ∃ f ∈ ttfs, parse f = none) ∧
      ∀ ps, ttfs.mapM parse = some ps → List.Forall₂ (fun f p => parse f = some p) ttfs ps := by
    intro ttfs
    induction ttfs with
    | nil => refine ⟨by simp, fun ps h => ?_⟩; simp at h; subst h; exact .nil
    | cons f fs ih =>
      rw [List.mapM_cons]
      cases h : parse f with
      | none => simp [h]
      | some p =>
        cases h2 : fs.mapM parse with
        | none =>
          refine ⟨by simpa [h] using ih.1.1 h2, fun ps hps => ?_⟩
          simp at hps
        | some qs =>
          refine ⟨?_, fun ps hps => ?_⟩
          · have : ¬ ∃ f ∈ fs, parse f = none := fun hc => by rw [ih.1.2 hc] at h2; simp at h2
            constructor
            · intro hc; simp at hc
            · rintro ⟨g, hg, e⟩
              rcases List.mem_cons.1 hg with rfl | hg
              · rw [h] at e; simp at e
              · exact absurd ⟨g, hg, e⟩ this
          · simp at hps
            subst hps
            exact .cons h (ih.2 qs h2)
  unfold coverageOf
  refine ⟨by rw [Option.map_eq_none_iff]; exact (key ttfs).1, fun cs h => ?_⟩
  obtain ⟨ps, hp, rfl⟩ := Option.map_eq_some_iff.1 h
  refine ⟨ps, (key ttfs).2 ps hp, ?_⟩
  rw [List.forall₂_map_right_iff, List.forall₂_same]
  intro e _
  have c := C17_count e ps
  exact ⟨c.1, c.2.1, by rw [c.2.2.2.1, ((key ttfs).2 ps hp).length_eq]⟩

example : newSDFBuilder [⟨24, 0⟩, ⟨0, 5⟩, ⟨32, 0⟩] = ⟨32, 5⟩ := by
  simp [newSDFBuilder, takeOpt, initOpt]

end Verif.Font
