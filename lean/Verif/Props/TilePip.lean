import Verif.Model.TileCover
import Mathlib.Tactic.Linarith
import Mathlib.Tactic.Ring
import Mathlib.Tactic.FieldSimp
import Mathlib.Tactic.Positivity

/-!
# C10, C11: bounding boxes and point in polygon
-/
namespace Verif.Cover
open Verif.Tid

/-! ## C10 -/

/-- Specification: `b` is the exact bounding box of the points. -/
def IsBox (pts : List Pt) (b : Box) : Prop :=
  (∀ p ∈ pts, b.W ≤ p.1 ∧ p.1 ≤ b.E ∧ b.S ≤ p.2 ∧ p.2 ≤ b.N) ∧
  (∃ p ∈ pts, p.1 = b.W) ∧ (∃ p ∈ pts, p.1 = b.E) ∧ (∃ p ∈ pts, p.2 = b.S) ∧ (∃ p ∈ pts, p.2 = b.N)

noncomputable def axisStep (s : ℝ × ℝ) (x : ℝ) : ℝ × ℝ :=
  if x < s.1 then (x, s.2) else if x > s.2 then (s.1, x) else s

theorem boxStep_axes (b : Box) (p : Pt) :
    ((boxStep b p).W, (boxStep b p).E) = axisStep (b.W, b.E) p.1 ∧
    ((boxStep b p).S, (boxStep b p).N) = axisStep (b.S, b.N) p.2 := by
  unfold boxStep axisStep
  constructor
  · by_cases h1 : p.1 < b.W <;> by_cases h2 : p.1 > b.E <;> by_cases h3 : p.2 < b.S <;> by_cases h4 : p.2 > b.N <;>
      simp [h1, h2, h3, h4]
  · by_cases h1 : p.1 < b.W <;> by_cases h2 : p.1 > b.E <;> by_cases h3 : p.2 < b.S <;> by_cases h4 : p.2 > b.N <;>
      simp [h1, h2, h3, h4]

theorem box_axes (pts : List Pt) (b : Box) :
    ((pts.foldl boxStep b).W, (pts.foldl boxStep b).E) = (pts.map (·.1)).foldl axisStep (b.W, b.E) ∧
    ((pts.foldl boxStep b).S, (pts.foldl boxStep b).N) = (pts.map (·.2)).foldl axisStep (b.S, b.N) := by
  induction pts generalizing b with
  | nil => exact ⟨rfl, rfl⟩
  | cons p pts ih =>
    simp only [List.foldl_cons, List.map_cons]
    rw [← (boxStep_axes b p).1, ← (boxStep_axes b p).2]
    exact ih _

/-- what is known after the first value `a` and the values `l` -/
structure AxInv (L a : ℝ) (l : List ℝ) (s : ℝ × ℝ) : Prop where
  lo : s.1 ≤ a ∧ ∀ x ∈ l, s.1 ≤ x
  lom : s.1 = L ∨ s.1 = a ∨ s.1 ∈ l
  hi : ∀ x ∈ l, x ≤ s.2 ∨ x ≤ a
  him : s.2 = -L ∨ s.2 = a ∨ s.2 ∈ l

theorem axis_inv (L a : ℝ) (l : List ℝ) (ha : a ≤ L) :
    AxInv L a l ((a :: l).foldl axisStep (L, -L)) := by
  rw [List.foldl_cons]
  have base : AxInv L a [] (axisStep (L, -L) a) := by
    unfold axisStep
    simp only
    split_ifs with h1 h2
    · exact ⟨⟨le_refl _, by simp⟩, Or.inr (Or.inl rfl), by simp, Or.inl rfl⟩
    · exact ⟨⟨by simp only; linarith, by simp⟩, Or.inl rfl, by simp, Or.inr (Or.inl rfl)⟩
    · exact ⟨⟨by simp only; linarith, by simp⟩, Or.inl rfl, by simp, Or.inl rfl⟩
  have step : ∀ (r : List ℝ) (s : ℝ × ℝ) (x : ℝ), AxInv L a r s → AxInv L a (r ++ [x]) (axisStep s x) := by
    intro r s x h
    obtain ⟨⟨h1, h2⟩, h3, h4, h5⟩ := h
    unfold axisStep
    split_ifs with g1 g2
    · refine ⟨⟨by simp only; linarith, ?_⟩, ?_, ?_, ?_⟩
      · intro y hy
        rcases List.mem_append.1 hy with hy | hy
        · simp only; linarith [h2 y hy]
        · rw [List.mem_singleton.1 hy]
      · right; right; simp
      · intro y hy
        rcases List.mem_append.1 hy with hy | hy
        · exact h4 y hy
        · rw [List.mem_singleton.1 hy]; right; linarith
      · rcases h5 with h | h | h
        · exact Or.inl h
        · exact Or.inr (Or.inl h)
        · exact Or.inr (Or.inr (List.mem_append_left _ h))
    · refine ⟨⟨h1, ?_⟩, ?_, ?_, ?_⟩
      · intro y hy
        rcases List.mem_append.1 hy with hy | hy
        · exact h2 y hy
        · rw [List.mem_singleton.1 hy]; push Not at g1; exact g1
      · rcases h3 with h | h | h
        · exact Or.inl h
        · exact Or.inr (Or.inl h)
        · exact Or.inr (Or.inr (List.mem_append_left _ h))
      · intro y hy
        rcases List.mem_append.1 hy with hy | hy
        · rcases h4 y hy with h | h
          · left; simp only; linarith
          · exact Or.inr h
        · rw [List.mem_singleton.1 hy]; exact Or.inl (le_refl _)
      · right; right; simp
    · push Not at g1 g2
      refine ⟨⟨h1, ?_⟩, ?_, ?_, ?_⟩
      · intro y hy
        rcases List.mem_append.1 hy with hy | hy
        · exact h2 y hy
        · rw [List.mem_singleton.1 hy]; exact g1
      · rcases h3 with h | h | h
        · exact Or.inl h
        · exact Or.inr (Or.inl h)
        · exact Or.inr (Or.inr (List.mem_append_left _ h))
      · intro y hy
        rcases List.mem_append.1 hy with hy | hy
        · exact h4 y hy
        · rw [List.mem_singleton.1 hy]; exact Or.inl g2
      · rcases h5 with h | h | h
        · exact Or.inl h
        · exact Or.inr (Or.inl h)
        · exact Or.inr (Or.inr (List.mem_append_left _ h))
  have gen : ∀ (l r : List ℝ) (s : ℝ × ℝ), AxInv L a r s → AxInv L a (r ++ l) (l.foldl axisStep s) := by
    intro l
    induction l with
    | nil => intro r s h; simpa using h
    | cons x l ih =>
      intro r s h
      have := ih (r ++ [x]) _ (step r s x h)
      simpa using this
  simpa using gen l [] _ base

theorem axis_closed (L a : ℝ) (mid : List ℝ) (hL : ∀ x ∈ a :: mid, -L ≤ x ∧ x ≤ L) :
    let s := (a :: (mid ++ [a])).foldl axisStep (L, -L)
    (∀ x ∈ a :: mid, s.1 ≤ x ∧ x ≤ s.2) ∧ s.1 ∈ a :: mid ∧ s.2 ∈ a :: mid := by
  intro s
  have ha := hL a (by simp)
  have h := axis_inv L a mid ha.2
  have es : s = axisStep ((a :: mid).foldl axisStep (L, -L)) a := by
    show (a :: (mid ++ [a])).foldl axisStep (L, -L) = _
    rw [← List.cons_append, List.foldl_append]; rfl
  obtain ⟨⟨h1, h2⟩, h3, h4, h5⟩ := h
  generalize (a :: mid).foldl axisStep (L, -L) = t at *
  have hs1 : s.1 = t.1 := by
    rw [es]; unfold axisStep
    rw [if_neg (by linarith)]
    split_ifs <;> rfl
  have hs2 : t.2 ≤ s.2 ∧ a ≤ s.2 ∧ (s.2 = t.2 ∨ s.2 = a) := by
    rw [es]; unfold axisStep
    rw [if_neg (by linarith)]
    split_ifs with g
    · exact ⟨by simp only; linarith, le_refl _, Or.inr rfl⟩
    · push Not at g
      exact ⟨le_refl _, g, Or.inl rfl⟩
  obtain ⟨k1, k2, k3⟩ := hs2
  have up : ∀ x ∈ a :: mid, x ≤ s.2 := by
    intro x hx
    rcases List.mem_cons.1 hx with e | e
    · rw [e]; exact k2
    · rcases h4 x e with g | g <;> linarith
  refine ⟨fun x hx => ⟨?_, up x hx⟩, ?_, ?_⟩
  · rw [hs1]
    rcases List.mem_cons.1 hx with e | e
    · rw [e]; exact h1
    · exact h2 x e
  · rw [hs1]
    rcases h3 with e | e | e
    · have : a = t.1 := le_antisymm (by rw [e]; exact ha.2) h1
      rw [← this]; simp
    · rw [e]; simp
    · exact List.mem_cons_of_mem _ e
  · rcases k3 with e | e
    · rcases h5 with g | g | g
      · have : a = s.2 := le_antisymm k2 (by rw [e, g]; exact ha.1)
        rw [← this]; simp
      · rw [e, g]; simp
      · rw [e]; exact List.mem_cons_of_mem _ g
    · rw [e]; simp

/-- Every closed list of at least two lon/lat points: `BoundingBoxPoints` is the exact bounding box. -/
theorem C10_closed (a : Pt) (mid : List Pt)
    (h : ∀ p ∈ a :: mid, -180 ≤ p.1 ∧ p.1 ≤ 180 ∧ -90 ≤ p.2 ∧ p.2 ≤ 90) :
    IsBox (a :: (mid ++ [a])) (boundingBoxPoints (a :: (mid ++ [a]))) := by
  obtain ⟨e1, e2⟩ := box_axes (a :: (mid ++ [a])) { W := 180, S := 90, E := -180, N := -90 }
  have f1 := axis_closed 180 a.1 (mid.map (·.1)) (by
    intro x hx
    rw [← List.map_cons, List.mem_map] at hx
    obtain ⟨p, hp, rfl⟩ := hx
    exact ⟨(h p hp).1, (h p hp).2.1⟩)
  have f2 := axis_closed 90 a.2 (mid.map (·.2)) (by
    intro x hx
    rw [← List.map_cons, List.mem_map] at hx
    obtain ⟨p, hp, rfl⟩ := hx
    exact ⟨(h p hp).2.2.1, (h p hp).2.2.2⟩)
  have m1 : (a :: (mid ++ [a])).map (·.1) = a.1 :: (mid.map (·.1) ++ [a.1]) := by simp
  have m2 : (a :: (mid ++ [a])).map (·.2) = a.2 :: (mid.map (·.2) ++ [a.2]) := by simp
  rw [m1] at e1
  rw [m2] at e2
  simp only at f1 f2 e1 e2
  rw [← e1] at f1
  rw [← e2] at f2
  have sub : ∀ p ∈ a :: (mid ++ [a]), p ∈ a :: mid := by
    intro p hp
    simp only [List.mem_cons, List.mem_append, List.not_mem_nil, or_false] at hp ⊢
    tauto
  have sup : ∀ p ∈ a :: mid, p ∈ a :: (mid ++ [a]) := by
    intro p hp
    simp only [List.mem_cons, List.mem_append, List.not_mem_nil, or_false] at hp ⊢
    tauto
  have mem1 : ∀ x, x ∈ a.1 :: mid.map (·.1) ↔ ∃ p ∈ a :: mid, p.1 = x := by
    intro x; rw [← List.map_cons (f := fun p : Pt => p.1), List.mem_map]
  have mem2 : ∀ x, x ∈ a.2 :: mid.map (·.2) ↔ ∃ p ∈ a :: mid, p.2 = x := by
    intro x; rw [← List.map_cons (f := fun p : Pt => p.2), List.mem_map]
  unfold boundingBoxPoints
  refine ⟨fun p hp => ?_, ?_, ?_, ?_, ?_⟩
  · have a1 := f1.1 p.1 ((mem1 _).2 ⟨p, sub p hp, rfl⟩)
    have a2 := f2.1 p.2 ((mem2 _).2 ⟨p, sub p hp, rfl⟩)
    exact ⟨a1.1, a1.2, a2.1, a2.2⟩
  · obtain ⟨p, hp, e⟩ := (mem1 _).1 f1.2.1; exact ⟨p, sup p hp, e⟩
  · obtain ⟨p, hp, e⟩ := (mem1 _).1 f1.2.2; exact ⟨p, sup p hp, e⟩
  · obtain ⟨p, hp, e⟩ := (mem2 _).1 f2.2.1; exact ⟨p, sup p hp, e⟩
  · obtain ⟨p, hp, e⟩ := (mem2 _).1 f2.2.2; exact ⟨p, sup p hp, e⟩

/-- The property fails for an open list: the east and north side of this one stay at -180 and -90. -/
theorem C10_open_false : (boundingBoxPoints [(10, 10), (0, 0)]).E = -180 ∧ (boundingBoxPoints [(10, 10), (0, 0)]).N = -90 ∧
    ¬ IsBox [(10, 10), (0, 0)] (boundingBoxPoints [(10, 10), (0, 0)]) := by
  have e : boundingBoxPoints [(10, 10), (0, 0)] = { W := 0, S := 0, E := -180, N := -90 } := by
    simp only [boundingBoxPoints, List.foldl_cons, List.foldl_nil, boxStep]
    norm_num
  refine ⟨by rw [e], by rw [e], fun h => ?_⟩
  have := (h.1 (10, 10) (by simp)).2.1
  rw [e] at this
  norm_num at this

/-! ## C11 -/

theorem crosses_iff (p a b : Pt) : crosses p a b = true ↔
    ¬ (a.2 ≤ p.2 ↔ b.2 ≤ p.2) ∧ p.1 < (p.2 - a.2) * (b.1 - a.1) / (b.2 - a.2) + a.1 := by
  have core : ∀ (h : a.2 ≠ b.2), (a.2 ≤ p.2 ∧ p.2 < b.2 ∨ b.2 ≤ p.2 ∧ p.2 < a.2) →
      (p.2 - a.2) * (b.1 - a.1) / (b.2 - a.2) + a.1 ≤ max a.1 b.1 := by
    intro h hs
    have ht : 0 ≤ (p.2 - a.2) / (b.2 - a.2) ∧ (p.2 - a.2) / (b.2 - a.2) ≤ 1 := by
      rcases hs with ⟨h1, h2⟩ | ⟨h1, h2⟩
      · exact ⟨div_nonneg (by linarith) (by linarith), (div_le_one (by linarith)).2 (by linarith)⟩
      · rw [← neg_div_neg_eq]
        exact ⟨div_nonneg (by linarith) (by linarith), (div_le_one (by linarith)).2 (by linarith)⟩
    have e : (p.2 - a.2) * (b.1 - a.1) / (b.2 - a.2) = (p.2 - a.2) / (b.2 - a.2) * (b.1 - a.1) := by ring
    rw [e]
    generalize (p.2 - a.2) / (b.2 - a.2) = t at ht
    have h1 := le_max_left a.1 b.1
    have h2 := le_max_right a.1 b.1
    nlinarith [ht.1, ht.2]
  by_cases hab : a.2 = b.2
  · have : crosses p a b = false := by
      unfold crosses
      simp only [hab, ge_iff_le, le_refl, if_true]
      rw [if_pos]
      by_cases h : p.2 < b.2
      · exact Or.inl h
      · exact Or.inr (by linarith)
    rw [this, hab]; simp
  · unfold crosses
    by_cases hge : a.2 ≥ b.2
    · have hgt : b.2 < a.2 := lt_of_le_of_ne hge (Ne.symm hab)
      simp only [if_pos hge]
      by_cases h1 : p.2 < b.2 ∨ p.2 ≥ a.2
      · rw [if_pos h1]
        constructor
        · intro h; cases h
        · rintro ⟨h2, -⟩
          exfalso; apply h2
          rcases h1 with h1 | h1
          · exact ⟨fun h => by linarith, fun h => by linarith⟩
          · exact ⟨fun h => by linarith, fun h => by linarith⟩
      · rw [if_neg h1]
        push Not at h1
        have hst : ¬ (a.2 ≤ p.2 ↔ b.2 ≤ p.2) := fun h => absurd (h.2 h1.1) (by linarith)
        have hc := core hab (Or.inr h1)
        by_cases h2 : p.1 ≥ max a.1 b.1 ∨ b.2 = a.2
        · rw [if_pos h2]
          have h3 : p.1 ≥ max a.1 b.1 := h2.resolve_right (Ne.symm hab)
          constructor
          · intro h; cases h
          · rintro ⟨-, h⟩; linarith
        · rw [if_neg h2]
          push Not at h2
          by_cases hx : a.1 = b.1
          · rw [if_neg (by simp [hx])]
            simp only [true_iff]
            refine ⟨hst, ?_⟩
            have := h2.1
            rw [hx, max_self] at this
            rw [hx]; simpa using this
          · by_cases h3 : p.1 ≥ (p.2 - a.2) * (b.1 - a.1) / (b.2 - a.2) + a.1
            · rw [if_pos ⟨hx, h3⟩]
              constructor
              · intro h; cases h
              · rintro ⟨-, h⟩; linarith
            · rw [if_neg (fun h => h3 h.2)]
              push Not at h3
              exact ⟨fun _ => ⟨hst, h3⟩, fun _ => rfl⟩
    · simp only [if_neg hge]
      push Not at hge
      by_cases h1 : p.2 < a.2 ∨ p.2 ≥ b.2
      · rw [if_pos h1]
        constructor
        · intro h; cases h
        · rintro ⟨h2, -⟩
          exfalso; apply h2
          rcases h1 with h1 | h1
          · exact ⟨fun h => by linarith, fun h => by linarith⟩
          · exact ⟨fun h => by linarith, fun h => by linarith⟩
      · rw [if_neg h1]
        push Not at h1
        have hst : ¬ (a.2 ≤ p.2 ↔ b.2 ≤ p.2) := fun h => absurd (h.1 h1.1) (by linarith)
        have hc := core hab (Or.inl h1)
        by_cases h2 : p.1 ≥ max a.1 b.1 ∨ b.2 = a.2
        · rw [if_pos h2]
          have h3 : p.1 ≥ max a.1 b.1 := h2.resolve_right (Ne.symm hab)
          constructor
          · intro h; cases h
          · rintro ⟨-, h⟩; linarith
        · rw [if_neg h2]
          push Not at h2
          by_cases hx : a.1 = b.1
          · rw [if_neg (by simp [hx])]
            simp only [true_iff]
            refine ⟨hst, ?_⟩
            have := h2.1
            rw [hx, max_self] at this
            rw [hx]; simpa using this
          · by_cases h3 : p.1 ≥ (p.2 - a.2) * (b.1 - a.1) / (b.2 - a.2) + a.1
            · rw [if_pos ⟨hx, h3⟩]
              constructor
              · intro h; cases h
              · rintro ⟨-, h⟩; linarith
            · rw [if_neg (fun h => h3 h.2)]
              push Not at h3
              exact ⟨fun _ => ⟨hst, h3⟩, fun _ => rfl⟩

theorem crosses_symm (p a b : Pt) : crosses p a b = crosses p b a := by
  rw [Bool.eq_iff_iff, crosses_iff, crosses_iff]
  by_cases h : a.2 = b.2
  · rw [h]; simp
  · have h1 : b.2 - a.2 ≠ 0 := fun e => h (by linarith)
    have h2 : a.2 - b.2 ≠ 0 := fun e => h (by linarith)
    have : (p.2 - a.2) * (b.1 - a.1) / (b.2 - a.2) + a.1 = (p.2 - b.2) * (a.1 - b.1) / (a.2 - b.2) + b.1 := by
      have : a.2 - b.2 = -(b.2 - a.2) := by ring
      rw [this]
      field_simp
      ring
    rw [this]
    tauto

theorem crosses_self (p a : Pt) : crosses p a a = false := by
  rw [← Bool.not_eq_true, crosses_iff]; simp

/-- crossings of a path -/
noncomputable def pathCount (p : Pt) : List Pt → Nat
  | [] => 0
  | [_] => 0
  | a :: b :: rest => (crosses p a b).toNat + pathCount p (b :: rest)

theorem countFrom_eq (p f : Pt) (l : List Pt) (h : l ≠ []) : countFrom p f l = pathCount p (l ++ [f]) := by
  induction l with
  | nil => exact absurd rfl h
  | cons a l ih =>
    cases l with
    | nil => simp [countFrom, pathCount]
    | cons b l =>
      simp only [countFrom, List.cons_append, pathCount]
      rw [ih (by simp), List.cons_append]

theorem pathCount_append (p : Pt) (l : List Pt) (a : Pt) (r : List Pt) :
    pathCount p (l ++ a :: r) = pathCount p (l ++ [a]) + pathCount p (a :: r) := by
  induction l with
  | nil => simp [pathCount]
  | cons b l ih =>
    cases l with
    | nil => simp [pathCount]
    | cons c l =>
      simp only [List.cons_append, pathCount] at ih ⊢
      rw [ih]; omega

theorem pathCount_reverse (p : Pt) (l : List Pt) : pathCount p l.reverse = pathCount p l := by
  induction l with
  | nil => rfl
  | cons a l ih =>
    cases l with
    | nil => rfl
    | cons b l =>
      have e : (a :: b :: l).reverse = l.reverse ++ b :: [a] := by simp
      rw [e, pathCount_append]
      have e2 : l.reverse ++ [b] = (b :: l).reverse := by simp
      rw [e2, ih]
      simp only [pathCount]
      rw [crosses_symm p b a]; omega

/-- crossings of a ring given by its vertices -/
noncomputable def ringC (p : Pt) (c : List Pt) : Nat :=
  match c with
  | [] => 0
  | a :: rest => pathCount p (a :: rest ++ [a])

theorem ringCount_eq (p : Pt) (c : List Pt) (h : c ≠ []) : ringCount p c = some (ringC p c) := by
  cases c with
  | nil => exact absurd rfl h
  | cons a rest =>
    unfold ringCount ringC
    simp only
    congr 1
    split_ifs with hc
    · rw [countFrom_eq _ _ _ (by simp)]
      simp only [List.cons_append, List.append_assoc, List.nil_append]
      have e1 : a :: (rest ++ [a, a]) = (a :: rest) ++ a :: [a] := by simp
      have e2 : a :: (rest ++ [a]) = (a :: rest) ++ [a] := by simp
      rw [e1, e2, pathCount_append]
      simp [pathCount, crosses_self]
    · rw [countFrom_eq _ _ _ (by simp)]

theorem pipCount_eq (p : Pt) (rings : List (List Pt)) :
    pipCount p rings = if [] ∈ rings then none else some (rings.map (ringC p)).sum := by
  induction rings with
  | nil => simp [pipCount]
  | cons c cs ih =>
    unfold pipCount
    by_cases hc : c = []
    · rw [hc]; simp [ringCount]
    · rw [ringCount_eq p c hc, ih]
      simp only
      by_cases h : [] ∈ cs
      · rw [if_pos h, if_pos (by simp [h])]; rfl
      · rw [if_neg h, if_neg (by simp only [List.mem_cons, not_or]; exact ⟨fun e => hc e.symm, h⟩)]
        simp

theorem pip_eq (rings : List (List Pt)) (p : Pt) :
    pip rings p = if [] ∈ rings then none else some ((rings.map (ringC p)).sum % 2 != 0) := by
  unfold pip
  rw [pipCount_eq]
  split <;> rfl

/-- `Pip` panics exactly when a ring has no points. -/
theorem C11_panics_iff (rings : List (List Pt)) (p : Pt) : pip rings p = none ↔ [] ∈ rings := by
  rw [pip_eq]; split <;> simp_all

theorem pip_replace (pre post : List (List Pt)) (c c' : List Pt) (p : Pt) (hc : c = [] ↔ c' = [])
    (h : ringC p c = ringC p c') : pip (pre ++ c :: post) p = pip (pre ++ c' :: post) p := by
  rw [pip_eq, pip_eq]
  have : ([] ∈ pre ++ c :: post) ↔ ([] ∈ pre ++ c' :: post) := by
    simp only [List.mem_append, List.mem_cons]
    rw [eq_comm (a := []) (b := c), eq_comm (a := []) (b := c'), hc]
  simp only [this, List.map_append, List.map_cons, h]

/-- A ring written closed or open gives the same answer. -/
theorem C11_closed_or_open (pre post : List (List Pt)) (a : Pt) (rest : List Pt) (p : Pt) :
    pip (pre ++ (a :: rest) :: post) p = pip (pre ++ (a :: rest ++ [a]) :: post) p := by
  apply pip_replace
  · simp
  · show pathCount p (a :: rest ++ [a]) = pathCount p (a :: (rest ++ [a]) ++ [a])
    have e : a :: (rest ++ [a]) ++ [a] = (a :: rest) ++ a :: [a] := by simp
    rw [e, pathCount_append p (a :: rest) a [a]]
    simp [pathCount, crosses_self]

theorem ringC_rotate (p : Pt) (xs ys : List Pt) : ringC p (xs ++ ys) = ringC p (ys ++ xs) := by
  cases xs with
  | nil => simp
  | cons a xs =>
    cases ys with
    | nil => simp
    | cons b ys =>
      show pathCount p (a :: (xs ++ b :: ys) ++ [a]) = pathCount p (b :: (ys ++ a :: xs) ++ [b])
      have e1 : a :: (xs ++ b :: ys) ++ [a] = (a :: xs) ++ b :: (ys ++ [a]) := by simp
      have e2 : b :: (ys ++ a :: xs) ++ [b] = (b :: ys) ++ a :: (xs ++ [b]) := by simp
      rw [e1, e2, pathCount_append, pathCount_append p (b :: ys)]
      simp only [List.cons_append]
      omega

/-- Starting the ring at another vertex gives the same answer. -/
theorem C11_rotation (pre post : List (List Pt)) (xs ys : List Pt) (p : Pt) :
    pip (pre ++ (xs ++ ys) :: post) p = pip (pre ++ (ys ++ xs) :: post) p := by
  apply pip_replace
  · simp [and_comm]
  · exact ringC_rotate p xs ys

/-- Reversing a ring gives the same answer. -/
theorem C11_reversal (pre post : List (List Pt)) (c : List Pt) (p : Pt) :
    pip (pre ++ c :: post) p = pip (pre ++ c.reverse :: post) p := by
  apply pip_replace
  · simp
  · cases c with
    | nil => rfl
    | cons a rest =>
      rw [List.reverse_cons, ringC_rotate]
      show pathCount p (a :: rest ++ [a]) = pathCount p (a :: rest.reverse ++ [a])
      rw [← pathCount_reverse]
      congr 1
      simp

/-- The order of the rings does not matter. -/
theorem C11_ring_order (r r' : List (List Pt)) (h : r.Perm r') (p : Pt) : pip r p = pip r' p := by
  rw [pip_eq, pip_eq]
  simp only [h.mem_iff, (h.map (ringC p)).sum_eq]

theorem pathCount_zero (p : Pt) (l : List Pt) (h : ∀ a ∈ l, ∀ b ∈ l, crosses p a b = false) : pathCount p l = 0 := by
  induction l with
  | nil => rfl
  | cons a l ih =>
    cases l with
    | nil => rfl
    | cons b l =>
      simp only [pathCount]
      rw [h a (by simp) b (by simp), ih (fun x hx y hy => h x (List.mem_cons_of_mem _ hx) y (List.mem_cons_of_mem _ hy))]
      rfl

theorem pathCount_west (p : Pt) (a : Pt) (l : List Pt) (h : ∀ q ∈ a :: l, p.1 < q.1) :
    (pathCount p (a :: l) % 2 = 0) ↔ (a.2 ≤ p.2 ↔ ((a :: l).getLast (by simp)).2 ≤ p.2) := by
  induction l generalizing a with
  | nil => simp [pathCount]
  | cons b l ih =>
    have hcr : crosses p a b = true ↔ ¬ (a.2 ≤ p.2 ↔ b.2 ≤ p.2) := by
      rw [crosses_iff]
      constructor
      · exact And.left
      · intro hs
        refine ⟨hs, ?_⟩
        have ha := h a (by simp)
        have hb := h b (by simp)
        have ht : 0 ≤ (p.2 - a.2) / (b.2 - a.2) ∧ (p.2 - a.2) / (b.2 - a.2) ≤ 1 := by
          by_cases h1 : a.2 ≤ p.2
          · have h2 : p.2 < b.2 := by by_contra hc; push Not at hc; exact hs ⟨fun _ => hc, fun _ => h1⟩
            exact ⟨div_nonneg (by linarith) (by linarith), (div_le_one (by linarith)).2 (by linarith)⟩
          · have h2 : b.2 ≤ p.2 := by by_contra hc; exact hs ⟨fun g => absurd g h1, fun g => absurd g hc⟩
            push Not at h1
            rw [← neg_div_neg_eq]
            exact ⟨div_nonneg (by linarith) (by linarith), (div_le_one (by linarith)).2 (by linarith)⟩
        have e : (p.2 - a.2) * (b.1 - a.1) / (b.2 - a.2) = (p.2 - a.2) / (b.2 - a.2) * (b.1 - a.1) := by ring
        rw [e]
        generalize (p.2 - a.2) / (b.2 - a.2) = t at ht
        nlinarith [ht.1, ht.2, mul_nonneg ht.1 (sub_nonneg.2 hb.le), mul_nonneg (sub_nonneg.2 ht.2) (sub_nonneg.2 ha.le)]
    have ihb := ih b (fun q hq => h q (List.mem_cons_of_mem _ hq))
    have el : (a :: b :: l).getLast (by simp) = (b :: l).getLast (by simp) := List.getLast_cons (by simp)
    rw [el]
    simp only [pathCount]
    by_cases hc : crosses p a b = true
    · have hs := hcr.1 hc
      rw [hc]
      simp only [Bool.toNat_true]
      have : (1 + pathCount p (b :: l)) % 2 = 0 ↔ ¬ (pathCount p (b :: l) % 2 = 0) := by omega
      rw [this, ihb]
      tauto
    · have hs : a.2 ≤ p.2 ↔ b.2 ≤ p.2 := by by_contra g; exact hc (hcr.2 g)
      rw [Bool.not_eq_true] at hc
      rw [hc]
      simp only [Bool.toNat_false, Nat.zero_add]
      rw [ihb, hs]

/-- A point outside the bounding box of the rings is not in the polygon. -/
theorem C11_outside_box (rings : List (List Pt)) (p : Pt) (hne : [] ∉ rings)
    (h : (∀ c ∈ rings, ∀ q ∈ c, p.1 < q.1) ∨ (∀ c ∈ rings, ∀ q ∈ c, q.1 < p.1) ∨
      (∀ c ∈ rings, ∀ q ∈ c, p.2 < q.2) ∨ (∀ c ∈ rings, ∀ q ∈ c, q.2 < p.2)) : pip rings p = some false := by
  have key : ∀ c ∈ rings, ringC p c % 2 = 0 := by
    intro c hc
    cases c with
    | nil => exact absurd hc hne
    | cons a rest =>
      have hmem : ∀ q ∈ a :: rest ++ [a], q ∈ a :: rest := by
        intro q hq
        simp only [List.mem_cons, List.mem_append, List.cons_append, List.not_mem_nil, or_false] at hq ⊢
        tauto
      show pathCount p (a :: rest ++ [a]) % 2 = 0
      rcases h with h | h | h | h
      · rw [List.cons_append, pathCount_west]
        · rw [List.getLast_cons (by simp), List.getLast_append_singleton]
        · intro q hq; exact h _ hc q (hmem q hq)
      · rw [pathCount_zero]
        intro x hx y hy
        have h1 := h _ hc x (hmem x hx)
        have h2 := h _ hc y (hmem y hy)
        unfold crosses
        simp only
        split
        · split
          · rfl
          · rw [if_pos (Or.inl (max_le h1.le h2.le))]
        · split
          · rfl
          · rw [if_pos (Or.inl (max_le h1.le h2.le))]
      · rw [pathCount_zero]
        intro x hx y hy
        rw [← Bool.not_eq_true, crosses_iff]
        rintro ⟨hs, -⟩
        have h1 := h _ hc x (hmem x hx)
        have h2 := h _ hc y (hmem y hy)
        exact hs ⟨fun g => by linarith, fun g => by linarith⟩
      · rw [pathCount_zero]
        intro x hx y hy
        rw [← Bool.not_eq_true, crosses_iff]
        rintro ⟨hs, -⟩
        have h1 := h _ hc x (hmem x hx)
        have h2 := h _ hc y (hmem y hy)
        exact hs ⟨fun g => h2.le, fun g => h1.le⟩
  rw [pip_eq, if_neg hne]
  have : (rings.map (ringC p)).sum % 2 = 0 := by
    clear hne h
    induction rings with
    | nil => rfl
    | cons c cs ih =>
      simp only [List.map_cons, List.sum_cons]
      have := key c (by simp)
      have := ih (fun d hd => key d (List.mem_cons_of_mem _ hd))
      omega
  rw [this]; rfl

/-- A rectangle contains exactly the points of the half-open rectangle. -/
theorem C11_rectangle (w s e n : ℝ) (hwe : w < e) (hsn : s < n) (p : Pt) :
    pip [[(w, s), (e, s), (e, n), (w, n), (w, s)]] p = some (decide (w ≤ p.1 ∧ p.1 < e ∧ s ≤ p.2 ∧ p.2 < n)) := by
  rw [pip_eq, if_neg (by simp)]
  congr 1
  have h1 : crosses p (w, s) (e, s) = false := by rw [← Bool.not_eq_true, crosses_iff]; simp
  have h3 : crosses p (e, n) (w, n) = false := by rw [← Bool.not_eq_true, crosses_iff]; simp
  have h2 : crosses p (e, s) (e, n) = decide ((s ≤ p.2 ∧ p.2 < n) ∧ p.1 < e) := by
    rw [Bool.eq_iff_iff, crosses_iff, decide_eq_true_eq]
    simp only [sub_self, mul_zero, zero_div, zero_add]
    constructor
    · rintro ⟨a, b⟩
      refine ⟨?_, b⟩
      by_cases g : s ≤ p.2
      · refine ⟨g, ?_⟩; by_contra hc; push Not at hc; exact a ⟨fun _ => hc, fun _ => g⟩
      · exfalso; push Not at g; exact a ⟨fun g' => by linarith, fun g' => by linarith⟩
    · rintro ⟨⟨a, b⟩, c⟩
      exact ⟨fun g => by have := g.1 a; linarith, c⟩
  have h4 : crosses p (w, n) (w, s) = decide ((s ≤ p.2 ∧ p.2 < n) ∧ p.1 < w) := by
    rw [crosses_symm, Bool.eq_iff_iff, crosses_iff, decide_eq_true_eq]
    simp only [sub_self, mul_zero, zero_div, zero_add]
    constructor
    · rintro ⟨a, b⟩
      refine ⟨?_, b⟩
      by_cases g : s ≤ p.2
      · refine ⟨g, ?_⟩; by_contra hc; push Not at hc; exact a ⟨fun _ => hc, fun _ => g⟩
      · exfalso; push Not at g; exact a ⟨fun g' => by linarith, fun g' => by linarith⟩
    · rintro ⟨⟨a, b⟩, c⟩
      exact ⟨fun g => by have := g.1 a; linarith, c⟩
  simp only [List.map_cons, List.map_nil, List.sum_cons, List.sum_nil, ringC, List.cons_append, List.nil_append, pathCount,
    h1, h2, h3, h4, crosses_self]
  by_cases a : s ≤ p.2 ∧ p.2 < n
  · by_cases b : p.1 < e
    · by_cases c : p.1 < w
      · simp [a, b, c]
      · have : w ≤ p.1 := not_lt.1 c
        simp [a, b, c, this]
    · have c : ¬ p.1 < w := fun h => b (by linarith)
      simp [b, c]
  · have : ¬ (w ≤ p.1 ∧ p.1 < e ∧ s ≤ p.2 ∧ p.2 < n) := fun h => a ⟨h.2.2.1, h.2.2.2⟩
    simp [a, this]

/-- Cutting a ring along a chord `u v`: a point is in the whole exactly when it is in one of the two parts but not
both, so the parts of a subdivision share no point and leave none out. -/
theorem C11_chord (u v : Pt) (xs ys : List Pt) (p : Pt) (b1 b2 : Bool)
    (h1 : pip [u :: xs ++ [v]] p = some b1) (h2 : pip [v :: ys ++ [u]] p = some b2) :
    pip [u :: xs ++ v :: ys] p = some (b1 != b2) := by
  rw [pip_eq, if_neg (by simp)] at h1 h2 ⊢
  simp only [List.map_cons, List.map_nil, List.sum_cons, List.sum_nil, Nat.add_zero, Option.some.injEq] at h1 h2 ⊢
  have e1 : ringC p (u :: xs ++ [v]) = pathCount p (u :: xs ++ [v]) + (crosses p v u).toNat := by
    show pathCount p (u :: (xs ++ [v]) ++ [u]) = _
    have : u :: (xs ++ [v]) ++ [u] = (u :: xs) ++ v :: [u] := by simp
    rw [this, pathCount_append]; simp [pathCount]
  have e2 : ringC p (v :: ys ++ [u]) = pathCount p (v :: ys ++ [u]) + (crosses p v u).toNat := by
    show pathCount p (v :: (ys ++ [u]) ++ [v]) = _
    have : v :: (ys ++ [u]) ++ [v] = (v :: ys) ++ u :: [v] := by simp
    rw [this, pathCount_append, crosses_symm p v u]; simp [pathCount]
  have e3 : ringC p (u :: xs ++ v :: ys) = pathCount p (u :: xs ++ [v]) + pathCount p (v :: ys ++ [u]) := by
    show pathCount p (u :: (xs ++ v :: ys) ++ [u]) = _
    have : u :: (xs ++ v :: ys) ++ [u] = (u :: xs) ++ v :: (ys ++ [u]) := by simp
    rw [this, pathCount_append]; rfl
  rw [← h1, ← h2, e1, e2, e3]
  generalize pathCount p (u :: xs ++ [v]) = m
  generalize pathCount p (v :: ys ++ [u]) = k
  generalize (crosses p v u).toNat = c
  have e : (m + k) % 2 = ((m + c) % 2 + (k + c) % 2) % 2 := by omega
  rw [e]
  rcases Nat.mod_two_eq_zero_or_one (m + c) with a | a <;> rcases Nat.mod_two_eq_zero_or_one (k + c) with b | b <;>
    rw [a, b] <;> rfl

/-! ### Triangles, and every ring as a fan of triangles -/

theorem crosses_up (p a b : Pt) (h1 : a.2 ≤ p.2) (h2 : p.2 < b.2) :
    crosses p a b = true ↔ (p.1 - a.1) * (b.2 - a.2) < (p.2 - a.2) * (b.1 - a.1) := by
  rw [crosses_iff]
  have hst : ¬ (a.2 ≤ p.2 ↔ b.2 ≤ p.2) := fun h => absurd (h.1 h1) (not_le.2 h2)
  have hd : 0 < b.2 - a.2 := by linarith
  simp only [hst, not_false_iff, true_and]
  rw [← sub_lt_iff_lt_add, lt_div_iff₀ hd]

theorem crosses_same (p a b : Pt) (h : a.2 ≤ p.2 ↔ b.2 ≤ p.2) : crosses p a b = false := by
  rw [← Bool.not_eq_true, crosses_iff]; tauto

/-- twice the signed area of the triangle -/
def area2 (a b c : Pt) : ℝ := (b.1 - a.1) * (c.2 - a.2) - (c.1 - a.1) * (b.2 - a.2)

/-- `p` is the mean of `a`, `b`, `c` with weights `x`, `y`, `z` -/
def IsMean (p a b c : Pt) (x y z : ℝ) : Prop :=
  x + y + z = 1 ∧ p.1 = x * a.1 + y * b.1 + z * c.1 ∧ p.2 = x * a.2 + y * b.2 + z * c.2

theorem mean_exists (p a b c : Pt) (h : area2 a b c ≠ 0) : ∃ x y z, IsMean p a b c x y z := by
  refine ⟨1 - area2 a p c / area2 a b c - area2 a b p / area2 a b c, area2 a p c / area2 a b c,
    area2 a b p / area2 a b c, by ring, ?_, ?_⟩ <;>
  · field_simp
    unfold area2
    ring

/-- one vertex below, two above -/
theorem tri_low (p a b c : Pt) (x y z : ℝ) (hm : IsMean p a b c x y z) (hD : area2 a b c ≠ 0)
    (ha : a.2 ≤ p.2) (hb : p.2 < b.2) (hc : p.2 < c.2) :
    (crosses p a b != crosses p a c) = true ↔ 0 ≤ x ∧ 0 ≤ y ∧ 0 ≤ z ∧
      ((0 < area2 a b c ∧ 0 < z) ∨ (area2 a b c < 0 ∧ 0 < y)) := by
  obtain ⟨e, e1, e2⟩ := hm
  have ex : x = 1 - y - z := by linarith
  have k1 : crosses p a b = true ↔ 0 < z * area2 a b c := by
    rw [crosses_up p a b ha hb, ← sub_pos]
    have : (p.2 - a.2) * (b.1 - a.1) - (p.1 - a.1) * (b.2 - a.2) = z * area2 a b c := by
      rw [e1, e2, ex]; unfold area2; ring
    rw [this]
  have k2 : crosses p a c = true ↔ y * area2 a b c < 0 := by
    rw [crosses_up p a c ha hc, ← sub_pos]
    have : (p.2 - a.2) * (c.1 - a.1) - (p.1 - a.1) * (c.2 - a.2) = -(y * area2 a b c) := by
      rw [e1, e2, ex]; unfold area2; ring
    rw [this]
    exact Left.neg_pos_iff
  have f1 : p.2 - a.2 = y * (b.2 - a.2) + z * (c.2 - a.2) := by rw [e2, ex]; ring
  have hx : 0 ≤ y → 0 ≤ z → 0 ≤ x := by
    intro hy hz
    by_contra hx
    push Not at hx
    have : p.2 - a.2 < p.2 - a.2 := by
      calc p.2 - a.2 ≤ (y + z) * (p.2 - a.2) := by nlinarith
        _ = y * (p.2 - a.2) + z * (p.2 - a.2) := by ring
        _ < y * (b.2 - a.2) + z * (c.2 - a.2) := by
            rcases lt_or_eq_of_le hy with h | h
            · nlinarith
            · have : 0 < z := by linarith
              nlinarith
        _ = p.2 - a.2 := f1.symm
    exact lt_irrefl _ this
  have hnn : ¬ (y < 0 ∧ z ≤ 0) ∧ ¬ (y ≤ 0 ∧ z < 0) := by
    constructor <;> rintro ⟨h1, h2⟩ <;> nlinarith
  rw [bne_iff_ne, ne_eq, Bool.eq_iff_iff, k1, k2]
  rcases lt_or_gt_of_ne hD with hneg | hpos
  · have m1 : 0 < z * area2 a b c ↔ z < 0 := by
      constructor
      · intro h; by_contra g; push Not at g; nlinarith
      · intro h; exact mul_pos_of_neg_of_neg h hneg
    have m2 : y * area2 a b c < 0 ↔ 0 < y := by
      constructor
      · intro h; by_contra g; push Not at g; nlinarith
      · intro h; exact mul_neg_of_pos_of_neg h hneg
    rw [m1, m2]
    constructor
    · intro h
      have hz : 0 ≤ z := by
        by_contra g
        push Not at g
        have hy : ¬ 0 < y := fun hy => h ⟨fun _ => hy, fun _ => g⟩
        push Not at hy
        exact hnn.2 ⟨hy, g⟩
      have hy : 0 < y := by
        by_contra g
        exact h ⟨fun h' => absurd h' (not_lt.2 hz), fun h' => absurd h' g⟩
      exact ⟨hx hy.le hz, hy.le, hz, Or.inr ⟨hneg, hy⟩⟩
    · rintro ⟨-, -, hz, ⟨h, -⟩ | ⟨-, h⟩⟩
      · linarith
      · intro g; linarith [g.2 h]
  · have m1 : 0 < z * area2 a b c ↔ 0 < z := by
      constructor
      · intro h; by_contra g; push Not at g; nlinarith
      · intro h; exact mul_pos h hpos
    have m2 : y * area2 a b c < 0 ↔ y < 0 := by
      constructor
      · intro h; by_contra g; push Not at g; nlinarith
      · intro h; exact mul_neg_of_neg_of_pos h hpos
    rw [m1, m2]
    constructor
    · intro h
      have hy : 0 ≤ y := by
        by_contra g
        push Not at g
        have hz : ¬ 0 < z := fun hz => h ⟨fun _ => g, fun _ => hz⟩
        push Not at hz
        exact hnn.1 ⟨g, hz⟩
      have hz : 0 < z := by
        by_contra g
        exact h ⟨fun h' => absurd h' g, fun h' => absurd h' (not_lt.2 hy)⟩
      exact ⟨hx hy hz.le, hy, hz.le, Or.inl ⟨hpos, hz⟩⟩
    · rintro ⟨-, hy, -, ⟨-, h⟩ | ⟨h, -⟩⟩
      · intro g; linarith [g.1 h]
      · linarith

/-- two vertices below, one above -/
theorem tri_high (p a b c : Pt) (x y z : ℝ) (hm : IsMean p a b c x y z) (hD : area2 a b c ≠ 0)
    (ha : p.2 < a.2) (hb : b.2 ≤ p.2) (hc : c.2 ≤ p.2) :
    (crosses p b a != crosses p c a) = true ↔ 0 ≤ x ∧ 0 ≤ y ∧ 0 ≤ z ∧
      ((0 < area2 a b c ∧ 0 < y) ∨ (area2 a b c < 0 ∧ 0 < z)) := by
  obtain ⟨e, e1, e2⟩ := hm
  have ex : x = 1 - y - z := by linarith
  have k1 : crosses p b a = true ↔ z * area2 a b c < 0 := by
    rw [crosses_up p b a hb ha, ← sub_pos]
    have : (p.2 - b.2) * (a.1 - b.1) - (p.1 - b.1) * (a.2 - b.2) = -(z * area2 a b c) := by
      rw [e1, e2, ex]; unfold area2; ring
    rw [this]
    exact Left.neg_pos_iff
  have k2 : crosses p c a = true ↔ 0 < y * area2 a b c := by
    rw [crosses_up p c a hc ha, ← sub_pos]
    have : (p.2 - c.2) * (a.1 - c.1) - (p.1 - c.1) * (a.2 - c.2) = y * area2 a b c := by
      rw [e1, e2, ex]; unfold area2; ring
    rw [this]
  have f1 : a.2 - p.2 = y * (a.2 - b.2) + z * (a.2 - c.2) := by rw [e2, ex]; ring
  have hx : 0 ≤ y → 0 ≤ z → 0 ≤ x := by
    intro hy hz
    by_contra hx
    push Not at hx
    have : a.2 - p.2 < a.2 - p.2 := by
      calc a.2 - p.2 < (y + z) * (a.2 - p.2) := by nlinarith
        _ = y * (a.2 - p.2) + z * (a.2 - p.2) := by ring
        _ ≤ y * (a.2 - b.2) + z * (a.2 - c.2) := by nlinarith
        _ = a.2 - p.2 := f1.symm
    exact lt_irrefl _ this
  have hnn : ¬ (y ≤ 0 ∧ z ≤ 0) := by
    rintro ⟨h1, h2⟩; nlinarith
  rw [bne_iff_ne, ne_eq, Bool.eq_iff_iff, k1, k2]
  rcases lt_or_gt_of_ne hD with hneg | hpos
  · have m1 : z * area2 a b c < 0 ↔ 0 < z := by
      constructor
      · intro h; by_contra g; push Not at g; nlinarith
      · intro h; exact mul_neg_of_pos_of_neg h hneg
    have m2 : 0 < y * area2 a b c ↔ y < 0 := by
      constructor
      · intro h; by_contra g; push Not at g; nlinarith
      · intro h; exact mul_pos_of_neg_of_neg h hneg
    rw [m1, m2]
    constructor
    · intro h
      have hy : 0 ≤ y := by
        by_contra g
        push Not at g
        have hz : ¬ 0 < z := fun hz => h ⟨fun _ => g, fun _ => hz⟩
        push Not at hz
        exact hnn ⟨g.le, hz⟩
      have hz : 0 < z := by
        by_contra g
        exact h ⟨fun h' => absurd h' g, fun h' => absurd h' (not_lt.2 hy)⟩
      exact ⟨hx hy hz.le, hy, hz.le, Or.inr ⟨hneg, hz⟩⟩
    · rintro ⟨-, hy, -, ⟨h, -⟩ | ⟨-, h⟩⟩
      · linarith
      · intro g; linarith [g.1 h]
  · have m1 : z * area2 a b c < 0 ↔ z < 0 := by
      constructor
      · intro h; by_contra g; push Not at g; nlinarith
      · intro h; exact mul_neg_of_neg_of_pos h hpos
    have m2 : 0 < y * area2 a b c ↔ 0 < y := by
      constructor
      · intro h; by_contra g; push Not at g; nlinarith
      · intro h; exact mul_pos h hpos
    rw [m1, m2]
    constructor
    · intro h
      have hz : 0 ≤ z := by
        by_contra g
        push Not at g
        have hy : ¬ 0 < y := fun hy => h ⟨fun _ => hy, fun _ => g⟩
        push Not at hy
        exact hnn ⟨hy, g.le⟩
      have hy : 0 < y := by
        by_contra g
        exact h ⟨fun h' => absurd h' (not_lt.2 hz), fun h' => absurd h' g⟩
      exact ⟨hx hy.le hz, hy.le, hz, Or.inl ⟨hpos, hy⟩⟩
    · rintro ⟨-, -, hz, ⟨-, h⟩ | ⟨h, -⟩⟩
      · intro g; linarith [g.2 h]
      · linarith

theorem pip_tri (p a b c : Pt) :
    pip [[a, b, c]] p = some (((crosses p a b) != (crosses p b c)) != (crosses p c a)) := by
  rw [pip_eq, if_neg (by simp)]
  simp only [List.map_cons, List.map_nil, List.sum_cons, List.sum_nil, ringC, List.cons_append, List.nil_append, pathCount]
  cases crosses p a b <;> cases crosses p b c <;> cases crosses p c a <;> rfl

/-- A triangle that is not flat: every point inside is found, and every point found is inside or on the edge. -/
theorem C11_triangle (p a b c : Pt) (hD : area2 a b c ≠ 0) :
    ((∃ x y z, IsMean p a b c x y z ∧ 0 < x ∧ 0 < y ∧ 0 < z) → pip [[a, b, c]] p = some true) ∧
    (pip [[a, b, c]] p = some true → ∃ x y z, IsMean p a b c x y z ∧ 0 ≤ x ∧ 0 ≤ y ∧ 0 ≤ z) := by
  have hDb : area2 b c a ≠ 0 := by have : area2 b c a = area2 a b c := by unfold area2; ring
                                   rw [this]; exact hD
  have hDc : area2 c a b ≠ 0 := by have : area2 c a b = area2 a b c := by unfold area2; ring
                                   rw [this]; exact hD
  have rot : ∀ {x y z}, IsMean p a b c x y z → IsMean p b c a y z x := by
    rintro x y z ⟨h1, h2, h3⟩; exact ⟨by linarith, by linarith, by linarith⟩
  have rot2 : ∀ {x y z}, IsMean p a b c x y z → IsMean p c a b z x y := by
    rintro x y z ⟨h1, h2, h3⟩; exact ⟨by linarith, by linarith, by linarith⟩
  rw [pip_tri, Option.some.injEq]
  obtain ⟨x, y, z, hm⟩ := mean_exists p a b c hD
  -- weights are unique
  have uniq : ∀ x' y' z', IsMean p a b c x' y' z' → x' = x ∧ y' = y ∧ z' = z := by
    rintro x' y' z' ⟨h1, h2, h3⟩
    obtain ⟨g1, g2, g3⟩ := hm
    have hz : (z' - z) * area2 a b c = 0 := by
      have hx : x = 1 - y - z := by linarith
      have hx' : x' = 1 - y' - z' := by linarith
      have q1 : (y' - y) * (b.1 - a.1) + (z' - z) * (c.1 - a.1) = 0 := by
        rw [hx'] at h2; rw [hx] at g2; linarith
      have q2 : (y' - y) * (b.2 - a.2) + (z' - z) * (c.2 - a.2) = 0 := by
        rw [hx'] at h3; rw [hx] at g3; linarith
      unfold area2
      have : (z' - z) * ((b.1 - a.1) * (c.2 - a.2) - (c.1 - a.1) * (b.2 - a.2)) =
        ((y' - y) * (b.2 - a.2) + (z' - z) * (c.2 - a.2)) * (b.1 - a.1) -
        ((y' - y) * (b.1 - a.1) + (z' - z) * (c.1 - a.1)) * (b.2 - a.2) := by ring
      rw [this, q1, q2]; ring
    have hy : (y' - y) * area2 a b c = 0 := by
      have hx : x = 1 - y - z := by linarith
      have hx' : x' = 1 - y' - z' := by linarith
      have q1 : (y' - y) * (b.1 - a.1) + (z' - z) * (c.1 - a.1) = 0 := by
        rw [hx'] at h2; rw [hx] at g2; linarith
      have q2 : (y' - y) * (b.2 - a.2) + (z' - z) * (c.2 - a.2) = 0 := by
        rw [hx'] at h3; rw [hx] at g3; linarith
      unfold area2
      have : (y' - y) * ((b.1 - a.1) * (c.2 - a.2) - (c.1 - a.1) * (b.2 - a.2)) =
        ((y' - y) * (b.1 - a.1) + (z' - z) * (c.1 - a.1)) * (c.2 - a.2) -
        ((y' - y) * (b.2 - a.2) + (z' - z) * (c.2 - a.2)) * (c.1 - a.1) := by ring
      rw [this, q1, q2]; ring
    have hy' := (mul_eq_zero.1 hy).resolve_right hD
    have hz' := (mul_eq_zero.1 hz).resolve_right hD
    exact ⟨by linarith, by linarith, by linarith⟩
  suffices h : ((0 < x ∧ 0 < y ∧ 0 < z) → ((crosses p a b != crosses p b c) != crosses p c a) = true) ∧
      (((crosses p a b != crosses p b c) != crosses p c a) = true → 0 ≤ x ∧ 0 ≤ y ∧ 0 ≤ z) by
    refine ⟨?_, fun g => ⟨x, y, z, hm, h.2 g⟩⟩
    rintro ⟨x', y', z', hm', hp⟩
    obtain ⟨e1, e2, e3⟩ := uniq _ _ _ hm'
    exact h.1 (by rw [← e1, ← e2, ← e3]; exact hp)
  have sgn := lt_or_gt_of_ne hD
  have sgnb := lt_or_gt_of_ne hDb
  have sgnc := lt_or_gt_of_ne hDc
  have e3 := hm.2.2
  have e0 := hm.1
  by_cases ha : a.2 ≤ p.2 <;> by_cases hb : b.2 ≤ p.2 <;> by_cases hc : c.2 ≤ p.2
  · -- all below
    rw [crosses_same p a b (by tauto), crosses_same p b c (by tauto), crosses_same p c a (by tauto)]
    refine ⟨fun ⟨hx, hy, hz⟩ => ?_, fun h => by simp at h⟩
    exfalso
    have e4 : x * (p.2 - a.2) + y * (p.2 - b.2) + z * (p.2 - c.2) = 0 := by
      have : x * (p.2 - a.2) + y * (p.2 - b.2) + z * (p.2 - c.2) = (x + y + z) * p.2 - (x * a.2 + y * b.2 + z * c.2) := by ring
      rw [this, e0, ← e3]; ring
    have t1 := mul_nonneg hx.le (sub_nonneg.2 ha)
    have t2 := mul_nonneg hy.le (sub_nonneg.2 hb)
    have t3 := mul_nonneg hz.le (sub_nonneg.2 hc)
    have z1 := (mul_eq_zero.1 (show x * (p.2 - a.2) = 0 by linarith)).resolve_left hx.ne'
    have z2 := (mul_eq_zero.1 (show y * (p.2 - b.2) = 0 by linarith)).resolve_left hy.ne'
    have z3 := (mul_eq_zero.1 (show z * (p.2 - c.2) = 0 by linarith)).resolve_left hz.ne'
    apply hD
    unfold area2
    rw [show c.2 - a.2 = 0 by linarith, show b.2 - a.2 = 0 by linarith]; ring
  · -- c above
    push Not at hc
    have := tri_high p c a b z x y (rot2 hm) hDc hc ha hb
    rw [crosses_same p a b (by tauto), crosses_symm p c a]
    have e : ((false != crosses p b c) != crosses p a c) = (crosses p a c != crosses p b c) := by
      cases crosses p b c <;> cases crosses p a c <;> rfl
    rw [e, this]
    exact ⟨fun ⟨h1, h2, h3⟩ => ⟨h3.le, h1.le, h2.le, sgnc.elim (fun g => Or.inr ⟨g, h2⟩) (fun g => Or.inl ⟨g, h1⟩)⟩,
      fun ⟨h1, h2, h3, _⟩ => ⟨h2, h3, h1⟩⟩
  · -- b above
    push Not at hb
    have := tri_high p b c a y z x (rot hm) hDb hb hc ha
    rw [crosses_same p c a (by tauto), crosses_symm p b c]
    have e : ((crosses p a b != crosses p c b) != false) = (crosses p c b != crosses p a b) := by
      cases crosses p a b <;> cases crosses p c b <;> rfl
    rw [e, this]
    exact ⟨fun ⟨h1, h2, h3⟩ => ⟨h2.le, h3.le, h1.le, sgnb.elim (fun g => Or.inr ⟨g, h1⟩) (fun g => Or.inl ⟨g, h3⟩)⟩,
      fun ⟨h1, h2, h3, _⟩ => ⟨h3, h1, h2⟩⟩
  · -- a below
    push Not at hb hc
    have := tri_low p a b c x y z hm hD ha hb hc
    rw [crosses_same p b c (by constructor <;> intro <;> linarith), crosses_symm p c a]
    have e : ((crosses p a b != false) != crosses p a c) = (crosses p a b != crosses p a c) := by
      cases crosses p a b <;> cases crosses p a c <;> rfl
    rw [e, this]
    exact ⟨fun ⟨h1, h2, h3⟩ => ⟨h1.le, h2.le, h3.le, sgn.elim (fun g => Or.inr ⟨g, h2⟩) (fun g => Or.inl ⟨g, h3⟩)⟩,
      fun ⟨h1, h2, h3, _⟩ => ⟨h1, h2, h3⟩⟩
  · -- a above
    push Not at ha
    have := tri_high p a b c x y z hm hD ha hb hc
    rw [crosses_same p b c (by tauto), crosses_symm p a b]
    have e : ((crosses p b a != false) != crosses p c a) = (crosses p b a != crosses p c a) := by
      cases crosses p b a <;> cases crosses p c a <;> rfl
    rw [e, this]
    exact ⟨fun ⟨h1, h2, h3⟩ => ⟨h1.le, h2.le, h3.le, sgn.elim (fun g => Or.inr ⟨g, h3⟩) (fun g => Or.inl ⟨g, h2⟩)⟩,
      fun ⟨h1, h2, h3, _⟩ => ⟨h1, h2, h3⟩⟩
  · -- b below
    push Not at ha hc
    have := tri_low p b c a y z x (rot hm) hDb hb hc ha
    rw [crosses_same p c a (by constructor <;> intro <;> linarith), crosses_symm p a b]
    have e : ((crosses p b a != crosses p b c) != false) = (crosses p b c != crosses p b a) := by
      cases crosses p b a <;> cases crosses p b c <;> rfl
    rw [e, this]
    exact ⟨fun ⟨h1, h2, h3⟩ => ⟨h2.le, h3.le, h1.le, sgnb.elim (fun g => Or.inr ⟨g, h3⟩) (fun g => Or.inl ⟨g, h1⟩)⟩,
      fun ⟨h1, h2, h3, _⟩ => ⟨h3, h1, h2⟩⟩
  · -- c below
    push Not at ha hb
    have := tri_low p c a b z x y (rot2 hm) hDc hc ha hb
    rw [crosses_same p a b (by constructor <;> intro <;> linarith), crosses_symm p b c]
    have e : ((false != crosses p c b) != crosses p c a) = (crosses p c a != crosses p c b) := by
      cases crosses p c b <;> cases crosses p c a <;> rfl
    rw [e, this]
    exact ⟨fun ⟨h1, h2, h3⟩ => ⟨h3.le, h1.le, h2.le, sgnc.elim (fun g => Or.inr ⟨g, h1⟩) (fun g => Or.inl ⟨g, h2⟩)⟩,
      fun ⟨h1, h2, h3, _⟩ => ⟨h2, h3, h1⟩⟩
  · -- all above
    push Not at ha hb hc
    rw [crosses_same p a b (by constructor <;> intro <;> linarith), crosses_same p b c (by constructor <;> intro <;> linarith),
      crosses_same p c a (by constructor <;> intro <;> linarith)]
    refine ⟨fun ⟨hx, hy, hz⟩ => ?_, fun h => by simp at h⟩
    exfalso
    have := mul_pos hx (sub_pos.2 ha)
    have := mul_pos hy (sub_pos.2 hb)
    have := mul_pos hz (sub_pos.2 hc)
    have e4 : x * (a.2 - p.2) + y * (b.2 - p.2) + z * (c.2 - p.2) = 0 := by
      have : x * (a.2 - p.2) + y * (b.2 - p.2) + z * (c.2 - p.2) = (x * a.2 + y * b.2 + z * c.2) - (x + y + z) * p.2 := by ring
      rw [this, e0, ← e3]; ring
    linarith

/-- Every ring is the fan of its triangles at the first vertex: the first triangle and the rest of the fan, a point
counting when it is in one but not both. -/
theorem C11_fan (a b c : Pt) (rest : List Pt) (p : Pt) (t r : Bool) (ht : pip [[a, b, c]] p = some t)
    (hr : pip [a :: c :: rest] p = some r) : pip [a :: b :: c :: rest] p = some (t != r) := by
  have h2 : pip [c :: rest ++ [a]] p = some r := by
    have := C11_rotation [] [] [a] (c :: rest) p
    simp only [List.nil_append, List.cons_append] at this
    rw [List.cons_append, ← this]; exact hr
  exact C11_chord a c [b] rest p t r ht h2

/-- the premises of `C11_triangle` are met: the point (1, 1) in a triangle -/
theorem C11_example : area2 (0, 0) (4, 0) (0, 4) ≠ 0 ∧ IsMean (1, 1) (0, 0) (4, 0) (0, 4) (1/2) (1/4) (1/4) ∧
    pip [[(0, 0), (4, 0), (0, 4)]] (1, 1) = some true ∧ pip [[(0, 0), (4, 0), (0, 4)]] (3, 3) = some false := by
  have hm : IsMean (1, 1) (0, 0) (4, 0) (0, 4) (1/2) (1/4) (1/4) := by
    refine ⟨by norm_num, by norm_num, by norm_num⟩
  have hD : area2 (0, 0) (4, 0) (0, 4) ≠ 0 := by unfold area2; norm_num
  refine ⟨hD, hm, (C11_triangle _ _ _ _ hD).1 ⟨_, _, _, hm, by norm_num, by norm_num, by norm_num⟩, ?_⟩
  rw [pip_tri]
  have h1 : crosses (3, 3) (0, 0) (4, 0) = false := crosses_same _ _ _ (by norm_num)
  have h2 : crosses (3, 3) (4, 0) (0, 4) = false := by
    rw [← Bool.not_eq_true, crosses_up _ _ _ (by norm_num) (by norm_num)]; norm_num
  have h3 : crosses (3, 3) (0, 4) (0, 0) = false := by
    rw [crosses_symm, ← Bool.not_eq_true, crosses_up _ _ _ (by norm_num) (by norm_num)]; norm_num
  rw [h1, h2, h3]; rfl

end Verif.Cover
