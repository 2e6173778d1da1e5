import Verif.Proof.JsonText
import Verif.Proof.Doc
import Verif.Spec.JsonDoc
import Verif.Props.Doc

/-! # Documents are written with numbers spelled as JSON wants and are not too deep -/
namespace Verif.JText

open Verif.Doc Verif.Go

/-- Whatever is written for a value is well spelled and not too deep. -/
def Neat {α : Type} (c : Codec α) (v : α) (k : Nat) : Prop := ∀ j, c.enc v = some j → Spelled j ∧ depth j ≤ k

theorem Neat.mono {α : Type} {c : Codec α} {v : α} {k k' : Nat} (h : Neat c v k) (hk : k ≤ k') : Neat c v k' :=
  fun j hj => ⟨(h j hj).1, Nat.le_trans (h j hj).2 hk⟩

theorem number_toDigits (n : Nat) : IntPart (Nat.toDigits 10 n) := by
  by_cases h : 0 < n
  · obtain ⟨c, cs, h1, h2, h3⟩ := toDigits_head n h
    refine Or.inr ⟨digits_iff.mpr ⟨toDigits_ne_nil n, fun c hc => toDigits_isDigit hc⟩, ?_⟩
    rw [h1]
    simpa using h2
  · have : n = 0 := by omega
    subst this
    exact Or.inl rfl

theorem number_itoa (n : Int) : Number (itoa n) := by
  unfold itoa
  split
  · exact ⟨['-'], _, [], [], Or.inr rfl, number_toDigits n.natAbs, Or.inl rfl, Or.inl rfl, by simp⟩
  · exact ⟨[], _, [], [], Or.inl rfl, number_toDigits n.natAbs, Or.inl rfl, Or.inl rfl, by simp⟩

theorem neat_str (s : Str) (k : Nat) : Neat strC s k := by
  intro j h
  simp only [strC, Option.some.injEq] at h
  subst h
  exact ⟨by simp [Spelled], by simp [depth]⟩

theorem neat_int (n : Int) (k : Nat) : Neat intC n k := by
  intro j h
  simp only [intC, Option.some.injEq] at h
  subst h
  exact ⟨by simp only [Spelled]; exact number_itoa n, by simp [depth]⟩

theorem neat_uint (bits n k : Nat) : Neat (uintC bits) n k := by
  intro j h
  simp only [uintC, Option.some.injEq] at h
  subst h
  exact ⟨by simp only [Spelled]; exact number_itoa n, by simp [depth]⟩

theorem neat_float {short : ℚ → Str} {q : ℚ} (h : Number (short q)) (k : Nat) : Neat (floatC short) q k := by
  intro j hj
  simp only [floatC, Option.some.injEq] at hj
  subst hj
  exact ⟨by simp only [Spelled]; exact h, by simp [depth]⟩

theorem neat_time (t : Time) (k : Nat) : Neat timeC t k := by
  intro j h
  simp only [timeC] at h
  cases ht : t.text with
  | none => rw [ht] at h; cases h
  | some s =>
    rw [ht] at h
    simp only [Option.map_some, Option.some.injEq] at h
    subst h
    exact ⟨by simp [Spelled], by simp [depth]⟩

theorem neat_ptr {α : Type} {c : Codec α} {o : Option α} {k : Nat} (h : ∀ v, o = some v → Neat c v k) : Neat (ptrC c) o k := by
  intro j hj
  cases o with
  | none =>
    simp only [ptrC, Option.some.injEq] at hj
    subst hj
    exact ⟨by simp [Spelled], by simp [depth]⟩
  | some v => exact h v rfl j hj

theorem neat_list {α : Type} {c : Codec α} {k : Nat} : ∀ {l : List α}, (∀ a ∈ l, Neat c a k) → ∀ js, encList c l = some js →
    SpelledL js ∧ depthL js ≤ k
  | [], _, js, h => by
    simp only [encList, Option.some.injEq] at h
    subst h
    exact ⟨by simp [SpelledL], by simp [depthL]⟩
  | a :: l, ha, js, h => by
    simp only [encList] at h
    cases h1 : c.enc a with
    | none => rw [h1] at h; cases h
    | some j =>
      cases h2 : encList c l with
      | none => rw [h1, h2] at h; cases h
      | some js' =>
        rw [h1, h2] at h
        simp only [Option.some.injEq] at h
        subst h
        obtain ⟨h3, h4⟩ := ha a (by simp) j h1
        obtain ⟨h5, h6⟩ := neat_list (fun b hb => ha b (by simp [hb])) js' h2
        exact ⟨by simp only [SpelledL]; exact ⟨h3, h5⟩, by simp only [depthL]; omega⟩

theorem neat_slice {α : Type} {c : Codec α} {o : Option (List α)} {k : Nat} (h : ∀ l, o = some l → ∀ a ∈ l, Neat c a k) :
    Neat (sliceC c) o (k + 1) := by
  intro j hj
  cases o with
  | none =>
    simp only [sliceC, Option.some.injEq] at hj
    subst hj
    exact ⟨by simp [Spelled], by simp [depth]⟩
  | some l =>
    simp only [sliceC] at hj
    cases h1 : encList c l with
    | none => rw [h1] at hj; cases hj
    | some js =>
      rw [h1] at hj
      simp only [Option.map_some, Option.some.injEq] at hj
      subst hj
      obtain ⟨h2, h3⟩ := neat_list (h l rfl) js h1
      exact ⟨by simp only [Spelled]; exact h2, by simp only [depth]; omega⟩

theorem neat_array {α : Type} {c : Codec α} {l : List α} {n k : Nat} (h : ∀ a ∈ l, Neat c a k) : Neat (arrayC n c) l (k + 1) := by
  intro j hj
  simp only [arrayC] at hj
  cases h1 : encList c l with
  | none => rw [h1] at hj; cases hj
  | some js =>
    rw [h1] at hj
    simp only [Option.map_some, Option.some.injEq] at hj
    subst hj
    obtain ⟨h2, h3⟩ := neat_list h js h1
    exact ⟨by simp only [Spelled]; exact h2, by simp only [depth]; omega⟩

theorem neat_entries {α : Type} {c : Codec α} {k : Nat} : ∀ {l : List (Str × α)}, (∀ e ∈ l, Neat c e.2 k) → ∀ ms,
    encMap c l = some ms → SpelledM ms ∧ depthM ms ≤ k
  | [], _, js, h => by
    simp only [encMap, Option.some.injEq] at h
    subst h
    exact ⟨by simp [SpelledM], by simp [depthM]⟩
  | (key, a) :: l, ha, js, h => by
    simp only [encMap] at h
    cases h1 : c.enc a with
    | none => rw [h1] at h; cases h
    | some j =>
      cases h2 : encMap c l with
      | none => rw [h1, h2] at h; cases h
      | some js' =>
        rw [h1, h2] at h
        simp only [Option.some.injEq] at h
        subst h
        obtain ⟨h3, h4⟩ := ha (key, a) (by simp) j h1
        obtain ⟨h5, h6⟩ := neat_entries (fun b hb => ha b (by simp [hb])) js' h2
        exact ⟨by simp only [SpelledM]; exact ⟨h3, h5⟩, by simp only [depthM]; omega⟩

theorem neat_map {α : Type} {c : Codec α} {o : Option (List (Str × α))} {k : Nat}
    (h : ∀ m, o = some m → ∀ e ∈ m, Neat c e.2 k) : Neat (mapC c) o (k + 1) := by
  intro j hj
  cases o with
  | none =>
    simp only [mapC, Option.some.injEq] at hj
    subst hj
    exact ⟨by simp [Spelled], by simp [depth]⟩
  | some l =>
    simp only [mapC] at hj
    cases h1 : encMap c l with
    | none => rw [h1] at hj; cases hj
    | some js =>
      rw [h1] at hj
      simp only [Option.map_some, Option.some.injEq] at hj
      subst hj
      obtain ⟨h2, h3⟩ := neat_entries (h l rfl) js h1
      exact ⟨by simp only [Spelled]; exact h2, by simp only [depth]; omega⟩

/-- Every field is neat. -/
def NeatAll : {β : Type} → Rec β → β → Nat → Prop
  | _, .nil, _, _ => True
  | _, .cons _ _ c r, v, k => Neat c v.1 k ∧ NeatAll r v.2 k

theorem neatCons {α β : Type} {key : Str} {om : Bool} {c : Codec α} {r : Rec β} {a : α} {b : β} {k : Nat} (h : Neat c a k)
    (hr : NeatAll r b k) : NeatAll (.cons key om c r) (a, b) k := ⟨h, hr⟩

theorem neat_fields : ∀ {β : Type} (r : Rec β) (v : β) (k : Nat), NeatAll r v k → ∀ ms, r.encAll v = some ms →
    SpelledM ms ∧ depthM ms ≤ k
  | _, .nil, _, _, _, ms, h => by
    simp only [Rec.encAll, Option.some.injEq] at h
    subst h
    exact ⟨by simp [SpelledM], by simp [depthM]⟩
  | _, .cons key om c r, v, k, hn, ms, h => by
    simp only [Rec.encAll] at h
    by_cases ho : (om && c.empty v.1) = true
    · rw [if_pos ho] at h
      exact neat_fields r v.2 k hn.2 ms h
    · rw [if_neg ho] at h
      cases h1 : c.enc v.1 with
      | none => rw [h1] at h; cases h
      | some j =>
        cases h2 : r.encAll v.2 with
        | none => rw [h1, h2] at h; cases h
        | some ms' =>
          rw [h1, h2] at h
          simp only [Option.some.injEq] at h
          subst h
          obtain ⟨h3, h4⟩ := hn.1 j h1
          obtain ⟨h5, h6⟩ := neat_fields r v.2 k hn.2 ms' h2
          exact ⟨by simp only [SpelledM]; exact ⟨h3, h5⟩, by simp only [depthM]; omega⟩

theorem neat_struct {β : Type} {r : Rec β} {v : β} {k : Nat} (h : NeatAll r v k) : Neat (structC r) v (k + 1) := by
  intro j hj
  simp only [structC] at hj
  cases h1 : r.encAll v with
  | none => rw [h1] at hj; cases hj
  | some ms =>
    rw [h1] at hj
    simp only [Option.map_some, Option.some.injEq] at hj
    subst hj
    obtain ⟨h2, h3⟩ := neat_fields r v k h ms h1
    exact ⟨by simp only [Spelled]; exact h2, by simp only [depth]; omega⟩

theorem neat_iso {α β : Type} {c : Codec β} {split : α → β} {join : β → α} {v : α} {k : Nat} (h : Neat c (split v) k) :
    Neat (c.iso split join) v k := h

mutual
theorem neat_dyn {short : ℚ → Str} (hs : ∀ q, Float64 q → Number (short q)) : ∀ (d : Dyn), d.Plain Float64 →
    Spelled (d.enc short) ∧ depth (d.enc short) ≤ nesting d
  | .nil, _ => ⟨by simp [Dyn.enc, Spelled], by simp [Dyn.enc, depth]⟩
  | .bool _, _ => ⟨by simp [Dyn.enc, Spelled], by simp [Dyn.enc, depth]⟩
  | .num q, h => ⟨by simp only [Dyn.enc, Spelled]; exact hs q (by simpa [Dyn.Plain] using h), by simp [Dyn.enc, depth]⟩
  | .int n, _ => ⟨by simp only [Dyn.enc, Spelled]; exact number_itoa n, by simp [Dyn.enc, depth]⟩
  | .str _, _ => ⟨by simp [Dyn.enc, Spelled], by simp [Dyn.enc, depth]⟩
  | .list l, h => by
    obtain ⟨h1, h2⟩ := neat_dynL hs l (by simpa [Dyn.Plain] using h)
    exact ⟨by simp only [Dyn.enc, Spelled]; exact h1, by simp only [Dyn.enc, depth, nesting]; omega⟩
  | .map l, h => by
    obtain ⟨h1, h2⟩ := neat_dynM hs l (by
      have h' := h
      simp only [Dyn.Plain] at h'
      first | exact h' | exact h'.1 | exact h'.2)
    exact ⟨by simp only [Dyn.enc, Spelled]; exact h1, by simp only [Dyn.enc, depth, nesting]; omega⟩
theorem neat_dynL {short : ℚ → Str} (hs : ∀ q, Float64 q → Number (short q)) : ∀ (l : List Dyn), Dyn.PlainL Float64 l →
    SpelledL (Dyn.encL short l) ∧ depthL (Dyn.encL short l) ≤ nestingL l
  | [], _ => ⟨by simp [Dyn.encL, SpelledL], by simp [Dyn.encL, depthL]⟩
  | d :: l, h => by
    simp only [Dyn.PlainL] at h
    obtain ⟨h1, h2⟩ := neat_dyn hs d h.1
    obtain ⟨h3, h4⟩ := neat_dynL hs l h.2
    exact ⟨by simp only [Dyn.encL, SpelledL]; exact ⟨h1, h3⟩, by simp only [Dyn.encL, depthL, nestingL]; omega⟩
theorem neat_dynM {short : ℚ → Str} (hs : ∀ q, Float64 q → Number (short q)) : ∀ (l : List (Str × Dyn)), Dyn.PlainM Float64 l →
    SpelledM (Dyn.encM short l) ∧ depthM (Dyn.encM short l) ≤ nestingM l
  | [], _ => ⟨by simp [Dyn.encM, SpelledM], by simp [Dyn.encM, depthM]⟩
  | (k, d) :: l, h => by
    simp only [Dyn.PlainM] at h
    obtain ⟨h1, h2⟩ := neat_dyn hs d h.1
    obtain ⟨h3, h4⟩ := neat_dynM hs l h.2
    exact ⟨by simp only [Dyn.encM, SpelledM]; exact ⟨h1, h3⟩, by simp only [Dyn.encM, depthM, nestingM]; omega⟩
end

theorem neat_any {short : ℚ → Str} (hs : ∀ q, Float64 q → Number (short q)) {d : Dyn} (h : d.Plain Float64) {k : Nat}
    (hk : nesting d ≤ k) : Neat (anyC short) d k := by
  intro j hj
  simp only [anyC, Option.some.injEq] at hj
  subst hj
  obtain ⟨h1, h2⟩ := neat_dyn hs d h
  exact ⟨h1, by omega⟩

end Verif.JText
