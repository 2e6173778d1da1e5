import Verif.Spec.StyleText
import Verif.Props.StyleParse
import Verif.Props.DocRead

/-!
# C97: style texts
-/
namespace Verif.Style

open Verif.Doc (J)
open Verif.JText (Spelled SpelledL SpelledM)

/-- An int is in the range of float64. -/
theorem int_inRange {n : Int} (h : |n| ≤ 2 ^ 63) : Doc.InRange (n : ℚ) := by
  unfold Doc.InRange
  have h1 : |(n : ℚ)| ≤ F64.pow2 63 := by
    rw [F64.pow2_eq]
    exact_mod_cast h
  have h2 : F64.pow2 63 < F64.pow2 970 := F64.pow2_lt_iff.2 (by norm_num)
  have h3 : F64.pow2 971 = 2 * F64.pow2 970 := by rw [show (971 : ℤ) = 1 + 970 from rfl, F64.pow2_add]; congr 1
  have h4 : F64.pow2 971 ≤ F64.pow2 1024 := F64.pow2_le (by norm_num)
  rw [← F64.pow2_eq, ← F64.pow2_eq]
  linarith

theorem spells_val {l : Doc.Str} {n : Int} (h : Spells l n) : DocRead.NumVal l n ∧ Doc.InRange (n : ℚ) := by
  rcases h with ⟨m, ⟨hd, rfl⟩, hm, rfl⟩ | ⟨d, m, rfl, ⟨hd, rfl⟩, hm, rfl⟩
  · refine ⟨⟨[], l, [], [], 0, by simp, .inl rfl, hd, by simp, .inl ⟨rfl, rfl⟩, ?_⟩, int_inRange ?_⟩
    · simp [Doc.decimal]
    · rw [Nat.abs_cast]; exact_mod_cast hm.le
  · refine ⟨⟨['-'], d, [], [], 0, by simp, .inr rfl, hd, by simp, .inl ⟨rfl, rfl⟩, ?_⟩, int_inRange ?_⟩
    · simp [Doc.decimal]
    · rw [abs_neg, Nat.abs_cast]; exact_mod_cast hm

theorem no_plus {l : Doc.Str} {v : ℚ} (hv : DocRead.NumVal l v) : l.head? ≠ some '+' := by
  obtain ⟨m, i, f, x, e, rfl, hm, hd, hf, hx, _⟩ := hv
  rcases hm with rfl | rfl
  · obtain ⟨h1, h2⟩ := hd
    cases i with
    | nil => exact absurd rfl h1
    | cons c i =>
      simp only [List.nil_append, List.cons_append, List.head?_cons, ne_eq, Option.some.injEq]
      rintro rfl
      exact absurd (h2 '+' (by simp)) (by decide)
  · simp

/-- The number of a text. -/
theorem toNumb_eq {l : Doc.Str} {v : ℚ} (hv : DocRead.NumVal l v) :
    (Doc.InRange v → ∃ i, toNumb l = .num ⟨F64.rnd64 v, i⟩ ∧ ∀ n, i = some n ↔ Spells l n) ∧
    (¬ Doc.InRange v → toNumb l = .huge) := by
  unfold toNumb
  constructor <;> intro hr
  · rw [(DocRead.num_read64 hv).1 hr]
    refine ⟨_, rfl, fun n => ?_⟩
    have key := DocRead.parseInt_split l (no_plus hv) n
    have e : (match Go.parseInt l 10 with | .ok n => some n | .error _ => none) = some n ↔ Go.parseInt l 10 = .ok n := by
      cases Go.parseInt l 10 <;> simp
    refine Iff.trans e ?_
    rw [key]
    unfold Spells
    norm_num
  · rw [(DocRead.num_read64 hv).2 hr]

mutual
theorem stands_toJson : ∀ {j : J}, Spelled j → StandsFor j (toJson j)
  | .null, _ => by simp [StandsFor, toJson]
  | .bool b, _ => by simp [StandsFor, toJson]
  | .str s, _ => by simp [StandsFor, toJson]
  | .num l, h => by
    simp only [Spelled] at h
    simp only [toJson]
    obtain ⟨v, hv⟩ := DocRead.number_val h
    by_cases hr : Doc.InRange v
    · obtain ⟨i, e, hi⟩ := (toNumb_eq hv).1 hr
      rw [e]
      simp only [StandsFor]
      exact ⟨⟨v, hv, hr, rfl⟩, hi⟩
    · rw [(toNumb_eq hv).2 hr]
      simp only [StandsFor]
      exact ⟨v, hv, hr⟩
  | .arr l, h => by
    simp only [Spelled] at h
    simp only [StandsFor, toJson]
    exact stand_toJsonL h
  | .obj l, h => by
    simp only [Spelled] at h
    simp only [StandsFor, toJson]
    exact stand_toJsonM h
theorem stand_toJsonL : ∀ {l : List J}, SpelledL l → StandForL l (toJsonL l)
  | [], _ => by simp [StandForL, toJsonL]
  | j :: js, h => by
    simp only [SpelledL] at h
    simp only [StandForL, toJsonL]
    exact ⟨stands_toJson h.1, stand_toJsonL h.2⟩
theorem stand_toJsonM : ∀ {l : List (Doc.Str × J)}, SpelledM l → StandForM l (toJsonM l)
  | [], _ => by simp [StandForM, toJsonM]
  | (k, j) :: js, h => by
    simp only [SpelledM] at h
    simp only [StandForM, toJsonM]
    exact ⟨by simp, stands_toJson h.1, stand_toJsonM h.2⟩
end

theorem numb_ext {a b : Numb} (h1 : a.val = b.val) (h2 : ∀ n, a.int = some n ↔ b.int = some n) : a = b := by
  obtain ⟨v, i⟩ := a
  obtain ⟨v', i'⟩ := b
  simp only at h1 h2
  subst h1
  congr 1
  exact Option.ext h2

mutual
theorem stands_unique : ∀ {j : J} {x : Json}, StandsFor j x → toJson j = x
  | .null, x, h => by cases x <;> simp_all [StandsFor, toJson]
  | .bool b, x, h => by cases x <;> simp_all [StandsFor, toJson]
  | .str s, x, h => by
    cases x with
    | str s' =>
      simp only [StandsFor] at h
      simp only [toJson, ← h, String.ofList_toList]
    | _ => simp [StandsFor] at h
  | .num l, x, h => by
    cases x with
    | num q =>
      simp only [StandsFor] at h
      obtain ⟨⟨v, hv, hr, e⟩, hi⟩ := h
      simp only [toJson]
      obtain ⟨i, e', hi'⟩ := (toNumb_eq hv).1 hr
      rw [e']
      congr 1
      exact numb_ext e.symm fun n => (hi' n).trans (hi n).symm
    | huge =>
      simp only [StandsFor] at h
      obtain ⟨v, hv, hr⟩ := h
      simp only [toJson]
      exact (toNumb_eq hv).2 hr
    | _ => simp [StandsFor] at h
  | .arr l, x, h => by
    cases x with
    | arr l' =>
      simp only [StandsFor] at h
      simp only [toJson, stand_uniqueL h]
    | _ => simp [StandsFor] at h
  | .obj l, x, h => by
    cases x with
    | obj l' =>
      simp only [StandsFor] at h
      simp only [toJson, stand_uniqueM h]
    | _ => simp [StandsFor] at h
theorem stand_uniqueL : ∀ {l : List J} {x : List Json}, StandForL l x → toJsonL l = x
  | [], x, h => by cases x <;> simp_all [StandForL, toJsonL]
  | j :: js, x, h => by
    cases x with
    | nil => simp [StandForL] at h
    | cons a xs =>
      simp only [StandForL] at h
      simp only [toJsonL, stands_unique h.1, stand_uniqueL h.2]
theorem stand_uniqueM : ∀ {l : List (Doc.Str × J)} {x : List (String × Json)}, StandForM l x → toJsonM l = x
  | [], x, h => by cases x <;> simp_all [StandForM, toJsonM]
  | (k, j) :: js, x, h => by
    cases x with
    | nil => simp [StandForM] at h
    | cons a xs =>
      obtain ⟨k', a⟩ := a
      simp only [StandForM] at h
      simp only [toJsonM, stands_unique h.2.1, stand_uniqueM h.2.2, ← h.1, String.ofList_toList]
end

/-- **C97.** Every piece of JSON text stands for exactly one value. -/
theorem C97_value (j : J) (t : Doc.Str) (h : JText.Text j t) : ∃! x, StandsFor j x :=
  ⟨toJson j, stands_toJson (DocRead.text_spelled h), fun _ hx => (stands_unique hx).symm⟩

theorem stand_num {l : Doc.Str} {x : Json} (h : StandsFor (.num l) x) : (∃ q, x = .num q) ∨ x = .huge := by
  cases x with
  | num q => exact .inl ⟨q, rfl⟩
  | huge => exact .inr rfl
  | _ => simp [StandsFor] at h

/-- **C97.** `Parse` succeeds exactly when the text begins, after white space, with JSON for a value that is an acceptable style and whose
background can be computed; what follows that JSON does not matter. -/
theorem C97_parse (rnd : ℚ → ℚ) (imp : Nat) (A : Arith ℚ) (s : Doc.Str) (v : StyleVal) (c : ColOut ℚ) :
    parseText rnd imp A s = .ok (v, c) ↔ ∃ x, StyleText s x ∧ decodeStyle rnd imp x = .ok v ∧ BackgroundIs A v c := by
  unfold parseText
  constructor
  · intro h
    cases hd : JText.decode s with
    | none => rw [hd] at h; cases h
    | some j =>
      rw [hd] at h
      obtain ⟨w, t, r, h1, h2, h3, h4⟩ := (JText.C95_first s j).1 hd
      obtain ⟨h5, h6⟩ := (C69_parse rnd imp A (toJson j) v c).1 h
      exact ⟨toJson j, ⟨j, w, t, r, h1, h2, h3, h4, stands_toJson (DocRead.text_spelled h2)⟩, h5, h6⟩
  · rintro ⟨x, ⟨j, w, t, r, h1, h2, h3, h4, hx⟩, h5, h6⟩
    have hn : ¬ ∃ n, j = .num n := by
      rintro ⟨n, rfl⟩
      have hf := (C69_accepts rnd imp x).1 ⟨v, h5⟩
      rcases stand_num hx with ⟨q, rfl⟩ | rfl <;> rcases hf with h | ⟨fs, h, _⟩ <;> cases h
    rw [(JText.C95_first s j).2 w t r h1 h2 h3 h4 (fun h => absurd h hn)]
    rw [← stands_unique hx] at h5
    exact (C69_parse rnd imp A (toJson j) v c).2 ⟨h5, h6⟩

/-- **C97.** What an accepted text means: it is null, and the style is empty; or it is an object, every member of which has the shape
its name calls for (`FitStyle`), and the style is what the members say (`MeansStyle`). -/
theorem C97_meaning (rnd : ℚ → ℚ) (imp : Nat) (A : Arith ℚ) (s : Doc.Str) (v : StyleVal) (c : ColOut ℚ)
    (h : parseText rnd imp A s = .ok (v, c)) : ∃ x, StyleText s x ∧ FitStyle rnd x ∧ BackgroundIs A v c ∧
      ((x = .null ∧ v = {}) ∨ ∃ fs, x = .obj fs ∧ MeansStyle rnd imp fs v) := by
  obtain ⟨x, h1, h2, h3⟩ := (C97_parse rnd imp A s v c).1 h
  have hf := (C69_accepts rnd imp x).1 ⟨v, h2⟩
  refine ⟨x, h1, hf, h3, ?_⟩
  rcases hf with rfl | ⟨fs, rfl, _⟩
  · left
    refine ⟨rfl, ?_⟩
    unfold decodeStyle structField finish at h2
    simp only [Bool.false_eq_true, if_false, Except.ok.injEq] at h2
    exact h2.symm
  · exact .inr ⟨fs, rfl, C69_meaning rnd imp fs v h2⟩

/-- **C97.** A text that does not begin with JSON for an acceptable style is never parsed into one. -/
theorem C97_refused (rnd : ℚ → ℚ) (imp : Nat) (A : Arith ℚ) (s : Doc.Str) (h : ∀ x, StyleText s x → ¬ FitStyle rnd x) :
    ∃ e, parseText rnd imp A s = .error e := by
  cases hp : parseText rnd imp A s with
  | error e => exact ⟨e, rfl⟩
  | ok r =>
    obtain ⟨x, h1, h2, _⟩ := C97_meaning rnd imp A s r.1 r.2 hp
    exact absurd h2 (h x h1)

/-- **C97.** A text that ends before its document does is an error, not a panic and never a style. -/
theorem C97_cut_short (rnd : ℚ → ℚ) (imp : Nat) (A : Arith ℚ) (fs : List (Doc.Str × J)) (t p : Doc.Str) (h : JText.Text (.obj fs) t)
    (hp : p <+: t) (hne : p ≠ t) : parseText rnd imp A p = .error .err := by
  unfold parseText
  rw [(JText.C95_cut_short (.obj fs) t p h (.inr ⟨fs, rfl⟩) hp hne).1]

theorem value_brace {n d : Nat} {rest r : Doc.Str} {j : J} (h : JText.value n d ('{' :: rest) = some (j, r)) : ∃ l, j = .obj l := by
  cases n with
  | zero => simp [JText.value] at h
  | succ n =>
    rw [JText.value.eq_def] at h
    have e : JText.skipWs ('{' :: rest) = '{' :: rest := by simp [JText.skipWs, JText.isWs]
    simp only [e] at h
    rw [if_neg (by decide), if_neg (by decide), if_pos trivial] at h
    cases d with
    | zero => cases h
    | succ d =>
      simp only at h
      split at h
      · simp only [Option.some.injEq, Prod.mk.injEq] at h
        exact ⟨_, h.1.symm⟩
      · obtain ⟨a, _, ha⟩ := Option.map_eq_some_iff.1 h
        simp only [Prod.mk.injEq] at ha
        exact ⟨_, ha.1.symm⟩

/-- **C97.** A document that is nested deeper than 10000 is an error, not a panic and never a style. -/
theorem C97_too_deep (rnd : ℚ → ℚ) (imp : Nat) (A : Arith ℚ) (fs : List (Doc.Str × J)) (w t r : Doc.Str) (hw : JText.Ws w)
    (h : JText.Text (.obj fs) t) (hd : 10000 < JText.depth (.obj fs)) : parseText rnd imp A (w ++ (t ++ r)) = .error .err := by
  have hn : JText.decode (w ++ (t ++ r)) = none := by
    cases hv : JText.decode (w ++ (t ++ r)) with
    | none => rfl
    | some j =>
      exfalso
      obtain ⟨w', t', r', h1, h2, h3, h4⟩ := (JText.C95_first _ _).1 hv
      have hj : ∃ l, j = .obj l := by
        have ht : ∃ rest, t = '{' :: rest := by cases h <;> exact ⟨_, rfl⟩
        obtain ⟨rest, rfl⟩ := ht
        unfold JText.decode at hv
        rw [JText.value_ws hw] at hv
        obtain ⟨a, ha, rfl⟩ := Option.map_eq_some_iff.1 hv
        exact value_brace (r := a.2) ha
      have v1 := JText.value_complete h (2 * t.length + 2 * t'.length + 1) (max (JText.depth (.obj fs)) (JText.depth j)) r (by omega)
        (by omega) (fun ⟨n, e⟩ => by cases e)
      have v2 := JText.value_complete h2 (2 * t.length + 2 * t'.length + 1) (max (JText.depth (.obj fs)) (JText.depth j)) r' (by omega)
        (by omega) (fun ⟨n, e⟩ => by obtain ⟨l, rfl⟩ := hj; cases e)
      rw [← JText.value_ws hw, h3, JText.value_ws h1, v2] at v1
      simp only [Option.some.injEq, Prod.mk.injEq] at v1
      rw [v1.1] at h4
      omega
  unfold parseText
  rw [hn]

/-- **C97.** The spelling of a number matters for the version and for the times of a transition: it has to spell an int. `8` is a
version, `8.0` and `8e0` are not. -/
theorem C97_int (l : Doc.Str) (x : Json) (h : StandsFor (.num l) x) : IsInt x ↔ ∃ n, Spells l n := by
  rcases stand_num h with ⟨q, rfl⟩ | rfl
  · simp only [StandsFor] at h
    constructor
    · rintro ⟨q', n, e, hn⟩
      cases e
      exact ⟨n, (h.2 n).1 hn⟩
    · rintro ⟨n, hn⟩
      exact ⟨q, n, rfl, (h.2 n).2 hn⟩
  · simp only [StandsFor] at h
    constructor
    · rintro ⟨q', n, e, hn⟩
      cases e
    · rintro ⟨n, hn⟩
      obtain ⟨v, hv, hr⟩ := h
      obtain ⟨h1, h2⟩ := spells_val hn
      rw [DocRead.numVal_unique hv h1] at hr
      exact absurd h2 hr

/-! ## Non-vacuity -/

/-- An arithmetic for the examples. -/
def demoArith : Arith ℚ := ⟨F64.rnd, fun b x => if x = 0 then 1 else b⟩

/-- What the examples look at. -/
def demoParse (s : String) : Option (String × Int × Nat) :=
  match parseText F64.rnd 0 demoArith s.toList with
  | .ok (v, _) => some (v.id, v.version, v.layers.length)
  | .error _ => none

/-- A style with names in another case, a repeated id and something after it; one whose version is no int; one that is cut short; and
one that is null. -/
example : demoParse " {\"ID\":\"a\",\"version\":8,\"Layers\":[null2]}" = none ∧
    demoParse " {\"ID\":\"a\",\"version\":8,\"Layers\":[{\"minZoom\":1.5,\"paint\":{\"line-width\":{\"stops\":[[1,2]]}}},null],\"id\":\"b\"} rest" =
      some ("b", 8, 2) ∧
    demoParse "{\"version\":8.0}" = none ∧ demoParse "{\"version\":8" = none ∧ demoParse "null" = some ("", 0, 0) := by
  decide +kernel

/-- A number beyond float64 is refused where it matters, and ignored in a member the style does not have. -/
example : demoParse "{\"version\":8,\"zoom\":1e999}" = none ∧ demoParse "{\"version\":8,\"zoom\":1e-999,\"size\":1e999}" = some ("", 8, 0) ∧
    demoParse "{\"metadata\":{\"a\":[1e999]}}" = none := by
  decide +kernel

/-- A text that meets the right-hand side of C97_parse: by C97_parse, as it is parsed. -/
example : ∃ x v c, StyleText " {\"version\":8} x".toList x ∧ decodeStyle F64.rnd 0 x = .ok v ∧ BackgroundIs demoArith v c ∧
    v.version = 8 := by
  have h : (demoParse " {\"version\":8} x").map (·.2.1) = some 8 := by decide +kernel
  unfold demoParse at h
  cases hp : parseText F64.rnd 0 demoArith " {\"version\":8} x".toList with
  | error e => rw [hp] at h; cases h
  | ok r =>
    rw [hp] at h
    obtain ⟨x, h1, h2, h3⟩ := (C97_parse F64.rnd 0 demoArith _ r.1 r.2).1 hp
    simp only [Option.map_some, Option.some.injEq] at h
    exact ⟨x, r.1, r.2, h1, h2, h3, h⟩

/-- Two `layers` members of one layer each are one layer with the members of both, as C69_repeated_layers says. -/
example : (demoParse "{\"layers\":[{\"id\":\"a\"}],\"LAYERS\":[{\"type\":\"line\"},{\"id\":\"b\"}]}").map (·.2.2) = some 2 ∧
    (match parseText F64.rnd 0 demoArith "{\"layers\":[{\"id\":\"a\"}],\"LAYERS\":[{\"type\":\"line\"}]}".toList with
      | .ok r => r.1.layers.map fun l => l.map fun l => (l.id, l.type)
      | .error _ => []) = [some ("a", "line")] := by
  decide +kernel

end Verif.Style
