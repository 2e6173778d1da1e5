import Verif.Props.MvtAreaFeature

/-!
# C84: ClipFeature of lines
-/
namespace Verif.Clip
open Verif.Tid Verif.Go

/-! ### one level of the map -/

theorem foldl_mapSet_iff (cs : List (TileID × Geom ℝ)) (hn : (cs.map Prod.fst).Nodup) : ∀ (m : List (TileID × Geom ℝ)),
    (∀ e ∈ m, e.1 ∉ cs.map Prod.fst) → ∀ x, x ∈ cs.foldl (fun m p => mapSet m p.1 p.2) m ↔ x ∈ cs ∨ x ∈ m := by
  intro m hm x
  constructor
  · intro h
    rcases foldl_mapSet_mem cs m x h with h | h
    · exact .inr h
    · exact .inl h
  · rintro (h | h)
    · exact foldl_mapSet_new cs m x h hn
    · exact foldl_mapSet_stay cs m x h (hm x h)

theorem lastZ_ne (cs : List (TileID × Geom ℝ)) (z : Nat) (hz : ∀ e ∈ cs, e.1.Z = z + 1) : ∀ last : Nat, (last = z + 1 ∨ cs ≠ []) →
    cs.foldl (fun l p => if p.1.Z ≠ 0 then p.1.Z else l) last = z + 1 := by
  induction cs with
  | nil => intro l hl; simpa using hl
  | cons x cs ih =>
    intro l _
    rw [List.foldl_cons]
    have hx := hz x (by simp)
    rw [if_pos (by omega)]
    exact ih (fun e he => hz e (by simp [he])) _ (.inl hx)

/-- A level of the loop: the entries of the level are replaced by (or, with `keep`, joined by) those of their children. -/
theorem levelStep_iff (keep : Bool) (cz : Nat) (hcz : cz ≤ 59) :
    ∀ (es m : List (TileID × Geom ℝ)) (last : Nat), (∀ e ∈ es, e.1.InGrid ∧ e.1.Z = cz) → (es.map Prod.fst).Nodup →
    (∀ e ∈ es, ∃ cs, childEntries e.1 e.2 = some cs ∧ (∀ x ∈ cs, x.1 ∈ children e.1) ∧ (cs.map Prod.fst).Nodup ∧ cs ≠ []) →
    (∀ x ∈ m, ∀ e ∈ es, x.1 ∉ children e.1) → (m.map Prod.fst).Nodup → (es ≠ [] ∨ last = cz + 1) →
    ∃ m', levelStep keep es m last = some (m', cz + 1) ∧ (m'.map Prod.fst).Nodup ∧
      ∀ x, x ∈ m' ↔ (∃ e ∈ es, ∃ cs, childEntries e.1 e.2 = some cs ∧ x ∈ cs) ∨ (x ∈ m ∧ (keep = true ∨ x.1 ∉ es.map Prod.fst)) := by
  intro es
  induction es with
  | nil =>
    intro m last _ _ _ _ hnd hl
    refine ⟨m, ?_, hnd, fun x => by simp⟩
    rw [levelStep]
    rcases hl with h | h
    · exact absurd rfl h
    · rw [h]
  | cons e es ih =>
    intro m last hes hned hcs hdis hnd _
    obtain ⟨k, g⟩ := e
    obtain ⟨hkg, hkz⟩ := hes (k, g) (by simp)
    obtain ⟨cs, c1, c2, c3, c4⟩ := hcs (k, g) (by simp)
    simp only at hkg hkz c1 c2
    simp only [List.map_cons, List.nodup_cons] at hned
    have hcz' : ∀ x ∈ cs, x.1.Z = cz + 1 := fun x hx => by
      have := (child_inGrid hkg (by omega) (c2 x hx)).2; omega
    have hmem := foldl_mapSet_iff cs c3 m (by
      intro x hx hin
      obtain ⟨y, hy, hxy⟩ := List.mem_map.1 hin
      exact hdis x hx (k, g) (by simp) (by rw [← hxy]; exact c2 y hy))
    have hn1 := foldl_mapSet_keys cs m hnd
    have hlast := lastZ_ne cs cz hcz' last (.inr c4)
    simp only [levelStep, Option.bind_eq_bind, c1, Option.bind_some]
    rw [hlast]
    generalize cs.foldl (fun m p => mapSet m p.1 p.2) m = m1 at hmem hn1 ⊢
    have hm2 : ∀ x, x ∈ (if keep then m1 else m1.filter (fun p => p.1 ≠ k)) ↔ x ∈ cs ∨ (x ∈ m ∧ (keep = true ∨ x.1 ≠ k)) := by
      intro x
      cases keep
      · simp only [Bool.false_eq_true, if_false, List.mem_filter, decide_eq_true_eq, false_or, hmem]
        constructor
        · rintro ⟨h | h, h2⟩
          · exact .inl h
          · exact .inr ⟨h, h2⟩
        · rintro (h | ⟨h, h2⟩)
          · refine ⟨.inl h, ?_⟩
            rintro rfl; have := hcz' x h; omega
          · exact ⟨.inr h, h2⟩
      · simp [hmem]
    have hnd2 : ((if keep then m1 else m1.filter (fun p => p.1 ≠ k)).map Prod.fst).Nodup := by
      split
      · exact hn1
      · exact (List.filter_sublist.map Prod.fst).nodup hn1
    generalize (if keep then m1 else m1.filter (fun p => p.1 ≠ k)) = m2 at hm2 hnd2 ⊢
    obtain ⟨m', i1, i2, i3⟩ := ih m2 (cz + 1) (fun e he => hes e (by simp [he])) hned.2 (fun e he => hcs e (by simp [he])) (by
      intro x hx e he hin
      obtain ⟨heg, hez⟩ := hes e (by simp [he])
      rcases (hm2 x).1 hx with h | ⟨h, _⟩
      · have := C03_children_disjoint k e.1 x.1 hkg heg (by omega) (by omega) (c2 x h) hin
        exact hned.1 (by rw [this]; exact List.mem_map_of_mem he)
      · exact hdis x h e (by simp [he]) hin) hnd2 (.inr rfl)
    refine ⟨m', i1, i2, fun x => ?_⟩
    rw [i3 x, hm2 x]
    constructor
    · rintro (⟨e, he, cs', h1, h2⟩ | ⟨h | ⟨h, h2⟩, h3⟩)
      · exact .inl ⟨e, by simp [he], cs', h1, h2⟩
      · exact .inl ⟨(k, g), by simp, cs, c1, h⟩
      · refine .inr ⟨h, ?_⟩
        rcases h2 with h2 | h2
        · exact .inl h2
        · rcases h3 with h3 | h3
          · exact .inl h3
          · right; simp only [List.map_cons, List.mem_cons, not_or]; exact ⟨h2, h3⟩
    · rintro (⟨e, he, cs', h1, h2⟩ | ⟨h, h2⟩)
      · rcases List.mem_cons.1 he with rfl | he
        · simp only at h1
          rw [c1] at h1
          obtain rfl : cs = cs' := by simpa using h1
          refine .inr ⟨.inl h2, .inr ?_⟩
          intro hin
          obtain ⟨e, he, hex⟩ := List.mem_map.1 hin
          have h3 := (hes e (by simp [he])).2
          have h4 := hcz' x h2
          rw [hex] at h3; omega
        · exact .inl ⟨e, he, cs', h1, h2⟩
      · refine .inr ⟨.inr ⟨h, ?_⟩, ?_⟩
        · rcases h2 with h2 | h2
          · exact .inl h2
          · right; simp only [List.map_cons, List.mem_cons, not_or] at h2; exact h2.1
        · rcases h2 with h2 | h2
          · exact .inl h2
          · right; simp only [List.map_cons, List.mem_cons, not_or] at h2; exact h2.2

/-! ### lines -/

section field
variable {F : Type} [Field F] [LinearOrder F] [IsStrictOrderedRing F]

/-- Pieces are not empty. -/
theorem clipLoop_ne (ax : Axis) (k1 k2 : F) : ∀ (g : List (F × F)) (st : St F) (out : List (List (F × F))), (∀ l ∈ st.out, l ≠ []) →
    clipLoop false ax k1 k2 g st = some out → ∀ l ∈ out, l ≠ [] := by
  intro g
  induction g with
  | nil => intro st out _ h; simp [clipLoop] at h
  | cons a g ih =>
    intro st out hst h
    cases g with
    | nil =>
      simp only [clipLoop, Option.some.injEq] at h
      subst h
      unfold finish
      dsimp only
      generalize closeRing false (if coord ax a ≥ k1 ∧ coord ax a ≤ k2 then st.slice ++ [a] else st.slice) = s
      split
      · rename_i hlen
        intro l hl
        rcases List.mem_append.1 hl with hl | hl
        · exact hst l hl
        · simp only [List.mem_singleton] at hl; subst hl
          exact List.length_pos_iff.1 hlen
      · exact hst
    | cons c g =>
      rw [clipLoop] at h
      refine ih _ out ?_ h
      unfold segStep
      dsimp only
      split
      · rename_i hx
        intro l hl
        rcases List.mem_append.1 hl with hl | hl
        · exact hst l hl
        · simp only [List.mem_singleton] at hl; subst hl
          intro hnil
          simp only [List.append_eq_nil_iff] at hnil
          have h2 := hnil.2
          simp only [Bool.not_false, Bool.true_and] at hx
          unfold exited at hx
          unfold leaving at h2
          simp only [List.append_eq_nil_iff] at h2
          simp only [Bool.or_eq_true, Bool.and_eq_true, decide_eq_true_eq] at hx
          rcases hx with hx | hx
          · have := h2.1; rw [if_pos hx] at this; simp at this
          · have := h2.2; rw [if_pos hx] at this; simp at this
      · exact hst

theorem clipLine_ne {g : List (F × F)} {k1 k2 : F} {ax : Axis} {out : List (List (F × F))} (h : clipLine g k1 k2 ax false = some out) :
    ∀ l ∈ out, l ≠ [] := clipLoop_ne ax k1 k2 g ⟨[], []⟩ out (by simp) h

theorem closeRing_false (s : List (F × F)) : closeRing false s = s := by
  unfold closeRing; split <;> simp

theorem segStep_false (ax : Axis) (k1 k2 : F) (st : St F) (a b : F × F) : segStep false ax k1 k2 st a b =
    if exited ax k1 k2 a b then ⟨[], st.out ++ [st.slice ++ entering ax k1 k2 a b ++ leaving ax k1 k2 a b]⟩
    else ⟨st.slice ++ entering ax k1 k2 a b ++ leaving ax k1 k2 a b, st.out⟩ := by
  unfold segStep; simp

theorem finish_false (ax : Axis) (k1 k2 : F) (st : St F) (a : F × F) : finish false ax k1 k2 st a =
    if coord ax a ≥ k1 ∧ coord ax a ≤ k2 then st.out ++ [st.slice ++ [a]] else if st.slice = [] then st.out else st.out ++ [st.slice] := by
  unfold finish
  simp only [closeRing_false]
  by_cases h : coord ax a ≥ k1 ∧ coord ax a ≤ k2
  · simp [h]
  · simp only [h, if_false]
    cases hs : st.slice <;> simp

theorem not_exited_leaving {ax : Axis} {k1 k2 : F} {a b : F × F} (h : exited ax k1 k2 a b = false) : leaving ax k1 k2 a b = [] := by
  unfold exited at h
  unfold leaving
  simp only [Bool.or_eq_false_iff, Bool.and_eq_false_iff, decide_eq_false_iff_not] at h
  rw [if_neg (by tauto), if_neg (by tauto)]; rfl

/-- Up (`true`) or down. -/
def ord (f : Bool) (u v : F) : Prop := if f then u ≤ v else v ≤ u

/-- Both coordinates move in the given directions. -/
def Dir (fx fy : Bool) (a b : F × F) : Prop := ord fx a.1 b.1 ∧ ord fy a.2 b.2

def along (fx fy : Bool) : Axis → Bool
  | .x => fx
  | .y => fy

theorem ord_trans {f : Bool} {u v w : F} (h1 : ord f u v) (h2 : ord f v w) : ord f u w := by
  unfold ord at *
  cases f
  · exact le_trans (α := F) h2 h1
  · exact le_trans (α := F) h1 h2

theorem ord_refl (f : Bool) (u : F) : ord f u u := by unfold ord; split <;> exact le_rfl

theorem dir_trans {fx fy : Bool} {a b c : F × F} (h1 : Dir fx fy a b) (h2 : Dir fx fy b c) : Dir fx fy a c :=
  ⟨ord_trans h1.1 h2.1, ord_trans h1.2 h2.2⟩

theorem dir_coord {fx fy : Bool} {a b : F × F} (h : Dir fx fy a b) (ax : Axis) : ord (along fx fy ax) (coord ax a) (coord ax b) := by
  cases ax
  · exact h.1
  · exact h.2

theorem ord_lerp {f : Bool} {a b : F} (h : ord f a b) {s t : F} (h0 : 0 ≤ s) (hst : s ≤ t) (h1 : t ≤ 1) :
    ord f a (a + (b - a) * s) ∧ ord f (a + (b - a) * s) (a + (b - a) * t) ∧ ord f (a + (b - a) * t) b := by
  unfold ord at *
  cases f
  · simp only [Bool.false_eq_true, if_false] at *
    refine ⟨by nlinarith, by nlinarith, by nlinarith⟩
  · simp only [if_true] at *
    refine ⟨by nlinarith, by nlinarith, by nlinarith⟩

/-- The parameter of a crossing. -/
def cut (a b v : F) : F := if b - a = 0 then 0 else (v - a) / (b - a)

theorem cut_range {f : Bool} {a b u v : F} (h1 : ord f a u) (h2 : ord f u v) (h3 : ord f v b) : 0 ≤ cut a b u ∧ cut a b u ≤ cut a b v ∧ cut a b v ≤ 1 := by
  unfold cut
  by_cases h : b - a = 0
  · simp [h]
  · simp only [h, if_false]
    unfold ord at *
    cases f
    · simp only [Bool.false_eq_true, if_false] at *
      have hd : b - a < 0 := lt_of_le_of_ne (by linarith) h
      exact ⟨div_nonneg_of_nonpos (by linarith) hd.le, by rw [div_le_div_right_of_neg hd]; linarith, by rw [div_le_one_of_neg hd]; linarith⟩
    · simp only [if_true] at *
      have hd : 0 < b - a := lt_of_le_of_ne (by linarith) (Ne.symm h)
      exact ⟨div_nonneg (by linarith) hd.le, by rw [div_le_div_iff_of_pos_right hd]; linarith, by rw [div_le_one hd]; linarith⟩

theorem intersect_x (a b : F × F) (v : F) : intersect .x a b v = (v, a.2 + (b.2 - a.2) * cut a.1 b.1 v) := by
  unfold intersect cut; dsimp only; split_ifs <;> simp

theorem intersect_y (a b : F × F) (v : F) : intersect .y a b v = (a.1 + (b.1 - a.1) * cut a.2 b.2 v, v) := by
  unfold intersect cut; dsimp only; split_ifs <;> simp

theorem intersect_dir {fx fy : Bool} {ax : Axis} {a b : F × F} (hab : Dir fx fy a b) {u v : F} (h1 : ord (along fx fy ax) (coord ax a) u)
    (h2 : ord (along fx fy ax) u v) (h3 : ord (along fx fy ax) v (coord ax b)) :
    Dir fx fy a (intersect ax a b u) ∧ Dir fx fy (intersect ax a b u) (intersect ax a b v) ∧ Dir fx fy (intersect ax a b v) b := by
  cases ax
  · simp only [along, coord] at h1 h2 h3
    obtain ⟨c1, c2, c3⟩ := cut_range h1 h2 h3
    obtain ⟨d1, d2, d3⟩ := ord_lerp hab.2 c1 c2 c3
    rw [intersect_x, intersect_x]
    exact ⟨⟨h1, d1⟩, ⟨h2, d2⟩, ⟨h3, d3⟩⟩
  · simp only [along, coord] at h1 h2 h3
    obtain ⟨c1, c2, c3⟩ := cut_range h1 h2 h3
    obtain ⟨d1, d2, d3⟩ := ord_lerp hab.1 c1 c2 c3
    rw [intersect_y, intersect_y]
    exact ⟨⟨d1, h1⟩, ⟨d2, h2⟩, ⟨d3, h3⟩⟩

theorem between_dir {fx fy : Bool} {ax : Axis} {a b : F × F} (hab : Dir fx fy a b) {v : F} (h1 : ord (along fx fy ax) (coord ax a) v)
    (h3 : ord (along fx fy ax) v (coord ax b)) : Dir fx fy a (intersect ax a b v) ∧ Dir fx fy (intersect ax a b v) b :=
  have h := intersect_dir hab h1 (ord_refl _ v) h3
  ⟨h.1, h.2.2⟩

theorem dir_refl (fx fy : Bool) (a : F × F) : Dir fx fy a a := ⟨ord_refl _ _, ord_refl _ _⟩

/-- The points a segment adds are on it, in order. -/
theorem enter_leave {fx fy : Bool} {ax : Axis} {a b : F × F} (hab : Dir fx fy a b) {k1 k2 : F} (hk : k1 ≤ k2) :
    (entering ax k1 k2 a b ++ leaving ax k1 k2 a b).Pairwise (Dir fx fy) ∧
    ∀ p ∈ entering ax k1 k2 a b ++ leaving ax k1 k2 a b, Dir fx fy a p ∧ Dir fx fy p b := by
  have hc := dir_coord hab ax
  have key := fun u v => intersect_dir (ax := ax) hab (u := u) (v := v)
  have key1 := fun v => between_dir (ax := ax) hab (v := v)
  unfold entering leaving
  generalize along fx fy ax = f at *
  generalize coord ax a = x at *
  generalize coord ax b = y at *
  have haa := dir_refl fx fy a
  unfold ord at *
  cases f
  all_goals
    simp only [Bool.false_eq_true, if_false, if_true] at *
    split_ifs
    all_goals
      try casesm* _ ∧ _
      simp only [List.nil_append, List.append_nil, List.cons_append, List.pairwise_cons, List.mem_cons,
        List.not_mem_nil, or_false, forall_eq_or_imp, forall_eq, List.Pairwise.nil, false_imp_iff, implies_true, and_true, true_and]
      first
        | exact key1 _ (by linarith) (by linarith)
        | exact ⟨(key _ _ (by linarith) (by linarith) (by linarith)).2.1, key1 _ (by linarith) (by linarith), key1 _ (by linarith) (by linarith)⟩
        | exact ⟨haa, hab⟩
        | exact ⟨(key1 _ (by linarith) (by linarith)).1, ⟨haa, hab⟩, key1 _ (by linarith) (by linarith)⟩
        | (exfalso; linarith)
        | skip

/-- Past the slab. -/
def past (f : Bool) (k1 k2 v : F) : Prop := if f then k2 < v else v < k1

theorem past_none {ax : Axis} {k1 k2 : F} (hk : k1 ≤ k2) {a b : F × F} {f : Bool} (hab : ord f (coord ax a) (coord ax b))
    (ha : past f k1 k2 (coord ax a)) : entering ax k1 k2 a b = [] ∧ exited ax k1 k2 a b = false ∧ past f k1 k2 (coord ax b) := by
  unfold entering exited
  generalize coord ax a = x at *
  generalize coord ax b = y at *
  unfold ord past at *
  cases f
  · simp only [Bool.false_eq_true, if_false] at *
    refine ⟨?_, ?_, by linarith⟩
    · rw [if_pos ha.le, if_neg (by linarith)]
    · simp only [Bool.or_eq_false_iff, Bool.and_eq_false_iff, decide_eq_false_iff_not]
      exact ⟨.inr (by linarith), .inl (by linarith)⟩
  · simp only [if_true] at *
    refine ⟨?_, ?_, by linarith⟩
    · rw [if_neg (by linarith), if_pos ha.le, if_neg (by linarith)]
    · simp only [Bool.or_eq_false_iff, Bool.and_eq_false_iff, decide_eq_false_iff_not]
      exact ⟨.inl (by linarith), .inr (by linarith)⟩

theorem exited_past {ax : Axis} {k1 k2 : F} {a b : F × F} {f : Bool} (hab : ord f (coord ax a) (coord ax b))
    (h : exited ax k1 k2 a b = true) : past f k1 k2 (coord ax b) := by
  unfold exited at h
  simp only [Bool.or_eq_true, Bool.and_eq_true, decide_eq_true_eq] at h
  generalize coord ax a = x at *
  generalize coord ax b = y at *
  unfold ord past at *
  cases f
  · simp only [Bool.false_eq_true, if_false] at *
    rcases h with h | h
    · exact h.1
    · exact absurd (lt_of_lt_of_le h.1 hab) (not_lt.2 h.2)
  · simp only [if_true] at *
    rcases h with h | h
    · exact absurd (lt_of_le_of_lt hab h.1) (not_lt.2 h.2)
    · exact h.1

/-- A line with steady directions has at most one piece, with the same directions. -/
theorem clipLoop_steady {fx fy : Bool} {ax : Axis} {k1 k2 : F} (hk : k1 ≤ k2) : ∀ (g : List (F × F)) (a : F × F) (st : St F) (out : List (List (F × F))),
    (a :: g).Pairwise (Dir fx fy) → st.slice.Pairwise (Dir fx fy) → (∀ p ∈ st.slice, Dir fx fy p a) → (∀ l ∈ st.out, l.Pairwise (Dir fx fy)) →
    (st.out = [] ∨ (st.slice = [] ∧ st.out.length = 1 ∧ past (along fx fy ax) k1 k2 (coord ax a))) →
    clipLoop false ax k1 k2 (a :: g) st = some out → out.length ≤ 1 ∧ ∀ l ∈ out, l.Pairwise (Dir fx fy) := by
  intro g
  induction g with
  | nil =>
    intro a st out _ hs hsa ho hst h
    simp only [clipLoop, Option.some.injEq] at h
    subst h
    rw [finish_false]
    rcases hst with hst | ⟨h1, h2, h3⟩
    · simp only [hst, List.nil_append]
      split_ifs
      · simp only [List.length_singleton, le_refl, List.mem_singleton, forall_eq, true_and]
        rw [List.pairwise_append]
        exact ⟨hs, by simp, fun p hp q hq => by simp only [List.mem_singleton] at hq; subst hq; exact hsa p hp⟩
      · simp
      · simpa using hs
    · have hout : ¬ (coord ax a ≥ k1 ∧ coord ax a ≤ k2) := by
        unfold past at h3
        rintro ⟨q1, q2⟩
        split at h3
        · exact absurd h3 (not_lt.2 q2)
        · exact absurd h3 (not_lt.2 q1)
      rw [if_neg hout, if_pos h1]
      exact ⟨h2.le, ho⟩
  | cons b g ih =>
    intro a st out hg hs hsa ho hst h
    rw [clipLoop, segStep_false] at h
    have hab : Dir fx fy a b := (List.pairwise_cons.1 hg).1 b (by simp)
    have hg' := (List.pairwise_cons.1 hg).2
    have hc := dir_coord hab ax
    obtain ⟨e1, e2⟩ := enter_leave (ax := ax) hab hk
    have hs' : (st.slice ++ entering ax k1 k2 a b ++ leaving ax k1 k2 a b).Pairwise (Dir fx fy) := by
      rw [List.append_assoc, List.pairwise_append]
      exact ⟨hs, e1, fun p hp q hq => dir_trans (hsa p hp) (e2 q hq).1⟩
    rcases hst with hst | ⟨h1, h2, h3⟩
    · by_cases hx : exited ax k1 k2 a b = true
      · rw [if_pos hx] at h
        refine ih b _ out hg' (by simp) (by simp) ?_ (.inr ⟨rfl, by simp [hst], exited_past hc hx⟩) h
        simp only [hst, List.nil_append, List.mem_singleton, forall_eq]
        exact hs'
      · rw [if_neg hx] at h
        refine ih b ⟨_, st.out⟩ out hg' hs' ?_ ho (.inl hst) h
        intro p hp
        rw [List.append_assoc] at hp
        rcases List.mem_append.1 hp with hp | hp
        · exact dir_trans (hsa p hp) hab
        · exact (e2 p hp).2
    · obtain ⟨p1, p2, p3⟩ := past_none hk hc h3
      rw [if_neg (by simp [p2]), h1, p1, not_exited_leaving p2, List.append_nil, List.append_nil] at h
      exact ih b ⟨[], st.out⟩ out hg' (by simp) (by simp) ho (.inr ⟨rfl, h2, p3⟩) h

theorem clipLine_steady {fx fy : Bool} {g : List (F × F)} {k1 k2 : F} (hk : k1 ≤ k2) {ax : Axis} {out : List (List (F × F))}
    (hg : g.Pairwise (Dir fx fy)) (h : clipLine g k1 k2 ax false = some out) : out.length ≤ 1 ∧ ∀ l ∈ out, l.Pairwise (Dir fx fy) := by
  cases g with
  | nil => simp [clipLine, clipLoop] at h
  | cons a g => exact clipLoop_steady hk g a ⟨[], []⟩ out hg (by simp) (by simp) (by simp) (.inl rfl) h

theorem steady_dir {l : List (F × F)} (h : Steady l) : ∃ fx fy, l.Pairwise (Dir fx fy) := by
  obtain ⟨hx, hy⟩ := h
  have key : ∀ fx fy, l.Pairwise (fun a b => ord fx a.1 b.1) → l.Pairwise (fun a b => ord fy a.2 b.2) → ∃ fx fy, l.Pairwise (Dir fx fy) :=
    fun fx fy h1 h2 => ⟨fx, fy, h1.and h2⟩
  rcases hx with hx | hx <;> rcases hy with hy | hy
  · exact key true true (by simpa [ord] using hx) (by simpa [ord] using hy)
  · exact key true false (by simpa [ord] using hx) (by simpa [ord] using hy)
  · exact key false true (by simpa [ord] using hx) (by simpa [ord] using hy)
  · exact key false false (by simpa [ord] using hx) (by simpa [ord] using hy)

/-- Every segment is steady. -/
theorem steady_segment (a b : F × F) : Steady [a, b] := by
  unfold Steady
  simp only [List.pairwise_cons, List.mem_cons, List.not_mem_nil, or_false, forall_eq, false_imp_iff, implies_true, List.Pairwise.nil, and_true]
  exact ⟨le_total a.1 b.1, le_total a.2 b.2⟩

/-- What is known of an entry: no geometry, or exactly the part; and if the line is steady (`D`) nothing is lost. -/
def Known (D : Prop) (fx fy : Bool) (l : List (F × F)) (b : Box F) (g : Geom F) : Prop :=
  (g = .empty ∧ (D → ∀ p, OnPath l p → ¬ InBox b p)) ∨ (IsPart l b g ∧ (D → ∃ m, g = .lineString m ∧ m.Pairwise (Dir fx fy)))

theorem lineResult_one {o : List (List (F × F))} (h : o.length ≠ 1) : lineResult o = .multiLineString o := by
  unfold lineResult
  split
  · simp at h
  · rfl

/-- Two cuts of a line. -/
theorem quad (D : Prop) (fx fy : Bool) (p7 : F) (m : List (F × F)) (hm : m ≠ []) (hD : D → m.Pairwise (Dir fx fy)) (w e : F) (hwe : w ≤ e) :
    ∃ v1, clip p7 (.lineString m) w e .x = some v1 ∧ ∀ s n, s ≤ n → ∃ v2, clip p7 v1 s n .y = some v2 ∧ makefeature v2 = some v2 ∧
      ((isEmpty v2 = true ∧ ∀ p, OnPath m p → ¬ InBox ⟨w, s, e, n⟩ p) ∨ (isEmpty v2 = false ∧ Known D fx fy m ⟨w, s, e, n⟩ v2)) := by
  obtain ⟨o1, h1, e1⟩ := C37_line_exact m w e .x hwe hm
  refine ⟨lineResult o1, by simp only [clip, h1, Option.map_some], ?_⟩
  intro s n hsn
  by_cases ho : o1.length = 1
  · obtain ⟨m1, rfl⟩ := List.length_eq_one_iff.1 ho
    have hm1 : m1 ≠ [] := clipLine_ne h1 m1 (by simp)
    obtain ⟨o2, h2, e2⟩ := C37_line_exact m1 s n .y hsn hm1
    have heq : ∀ p, OnPaths o2 p ↔ OnPath m p ∧ InBox ⟨w, s, e, n⟩ p := by
      intro p
      rw [e2, ← onPaths_single, e1]
      unfold InBox InSlab coord
      tauto
    have hne2 := clipLine_ne h2
    refine ⟨lineResult o2, by simp only [lineResult, clip, h2, Option.map_some], ?_, ?_⟩
    · unfold lineResult; split <;> rfl
    · by_cases hz : o2 = []
      · left
        subst hz
        refine ⟨rfl, fun p hp hb => ?_⟩
        have := (heq p).2 ⟨hp, hb⟩
        simp [OnPaths] at this
      · right
        have hst : D → o2.length ≤ 1 ∧ ∀ l ∈ o2, l.Pairwise (Dir fx fy) := fun d =>
          clipLine_steady hsn ((clipLine_steady hwe (hD d) h1).2 m1 (by simp)) h2
        by_cases h21 : o2.length = 1
        · obtain ⟨m2, rfl⟩ := List.length_eq_one_iff.1 h21
          have hm2 := hne2 m2 (by simp)
          refine ⟨by simpa [lineResult, isEmpty] using hm2, .inr ⟨⟨[m2], rfl, by simp, hne2, heq⟩, fun d => ⟨m2, rfl, (hst d).2 m2 (by simp)⟩⟩⟩
        · rw [lineResult_one h21]
          refine ⟨by simpa [isEmpty] using hz, .inr ⟨⟨o2, rfl, hz, hne2, heq⟩, fun d => ?_⟩⟩
          have := (hst d).1
          have := List.length_pos_iff.2 hz
          omega
  · rw [lineResult_one ho]
    refine ⟨.empty, rfl, rfl, .inr ⟨rfl, .inl ⟨rfl, fun d p hp hb => ?_⟩⟩⟩
    have h3 := (clipLine_steady hwe (hD d) h1).1
    have h4 : o1 = [] := List.length_eq_zero_iff.1 (by omega)
    have := (e1 p).2 ⟨hp, hb.1⟩
    rw [h4] at this
    simp [OnPaths] at this

theorem inBox_path {b : Box F} : ∀ {l : List (F × F)}, (∀ p ∈ l, InBox b p) → ∀ p, OnPath l p → InBox b p := by
  intro l
  induction l with
  | nil => intro _ p hp; exact hp.elim
  | cons a l ih =>
    intro h p hp
    cases l with
    | nil => simp only [OnPath] at hp; subst hp; exact h _ (by simp)
    | cons c l =>
      rcases hp with ⟨t, h0, h1, rfl⟩ | hp
      · obtain ⟨⟨a1, a2⟩, ⟨a3, a4⟩⟩ := h a (by simp)
        obtain ⟨⟨c1, c2⟩, ⟨c3, c4⟩⟩ := h c (by simp)
        unfold InBox lerp
        refine ⟨⟨?_, ?_⟩, ⟨?_, ?_⟩⟩ <;> simp only <;> nlinarith
      · exact ih (fun p hp => h p (by simp [hp])) p hp

end field

/-! ### one tile -/

theorem mapM_id {l : List (TileID × Geom ℝ)} (h : ∀ e ∈ l, makefeature e.2 = some e.2) :
    l.mapM (fun p => (makefeature p.2).map fun g => (p.1, g)) = some l := by
  induction l with
  | nil => rfl
  | cons e l ih =>
    rw [List.mapM_cons, h e (by simp), ih (fun e he => h e (by simp [he]))]
    rfl

theorem quad_none {p7 : ℝ} {g : Geom ℝ} (hg : g = .empty ∨ ∃ ls, g = .multiLineString ls) (k1 k2 : ℝ) (ax : Axis) : clip p7 g k1 k2 ax = some .empty := by
  rcases hg with rfl | ⟨ls, rfl⟩ <;> rfl

/-- The entries of the four children that are not empty. -/
theorem four (a b c d : TileID) (lu ru rd ld : Geom ℝ) : ∃ cs, (([a, b, c, d].zip [if isEmpty lu then none else some lu, if isEmpty ru then none else some ru,
          if isEmpty rd then none else some rd, if isEmpty ld then none else some ld]).filterMap fun p => p.2.map fun g => (p.1, g)) = cs ∧
    (∀ x : TileID × Geom ℝ, x ∈ cs ↔
          (x = (a, lu) ∧ isEmpty lu = false) ∨ (x = (b, ru) ∧ isEmpty ru = false) ∨ (x = (c, rd) ∧ isEmpty rd = false) ∨ (x = (d, ld) ∧ isEmpty ld = false)) ∧
    (cs.map Prod.fst).Sublist [a, b, c, d] := by
  refine ⟨_, rfl, ?_, ?_⟩
  · intro x
    cases isEmpty lu <;> cases isEmpty ru <;> cases isEmpty rd <;> cases isEmpty ld <;> simp
  · have key : ∀ (ts : List TileID) (rs : List (Option (Geom ℝ))),
        (((ts.zip rs).filterMap fun p => p.2.map fun g => (p.1, g)).map Prod.fst).Sublist ts := by
      intro ts
      induction ts with
      | nil => simp
      | cons t ts ih =>
        intro rs
        cases rs with
        | nil => simp
        | cons r rs =>
          cases r with
          | none => simpa using (ih rs).cons t
          | some g => simpa using (ih rs).cons_cons t
    exact key _ _

set_option maxHeartbeats 1000000 in
/-- The children of one entry. -/
theorem child_lines (D : Prop) (fx fy : Bool) (l : List (ℝ × ℝ)) (k : TileID) (hk : k.InGrid) (hz : k.Z ≤ 60) (g : Geom ℝ)
    (hg : Known D fx fy l (tileBox k) g) : ∃ cs, childEntries k g = some cs ∧ (∀ x ∈ cs, x.1 ∈ children k) ∧ (cs.map Prod.fst).Nodup ∧ cs ≠ [] ∧
      (∀ x ∈ cs, Known D fx fy l (tileBox x.1) x.2) ∧
      ∀ c ∈ children k, (∃ p, OnPath l p ∧ InBox (tileBox c) p) → ∃ g', (c, g') ∈ cs := by
  obtain ⟨a, b, c, d, mx, my, hch, hm1, hm2, hp1, hp2, ha, hb, hc, hd⟩ := C04_children_edges k (inGrid_noOverflow hk hz)
  have ba : tileBox a = ⟨(bounds k).W, my, mx, (bounds k).N⟩ := by unfold tileBox; rw [ha]
  have bb : tileBox b = ⟨mx, my, (bounds k).E, (bounds k).N⟩ := by unfold tileBox; rw [hb]
  have bc : tileBox c = ⟨mx, (bounds k).S, (bounds k).E, my⟩ := by unfold tileBox; rw [hc]
  have bd : tileBox d = ⟨(bounds k).W, (bounds k).S, mx, my⟩ := by unfold tileBox; rw [hd]
  have hnodup : [a, b, c, d].Nodup := by rw [← hch]; exact (C03_children_distinct_in_grid k hk (by omega)).2.1
  have bk : tileBox k = ⟨(bounds k).W, (bounds k).S, (bounds k).E, (bounds k).N⟩ := rfl
  unfold childEntries
  rw [hch]
  simp only [ba, bb, bc, bd, Option.bind_eq_bind]
  rw [bk] at hg ⊢
  generalize (bounds k).W = w at *
  generalize (bounds k).E = e at *
  generalize (bounds k).S = s at *
  generalize (bounds k).N = n at *
  clear ha hb hc hd hch hk hz bk
  have sub : ∀ x ∈ [a, b, c, d], ∀ p, InBox (tileBox x) p → InBox ⟨w, s, e, n⟩ p := by
    intro x hx p hp
    simp only [List.mem_cons, List.not_mem_nil, or_false] at hx
    rcases hx with rfl | rfl | rfl | rfl
    · rw [ba] at hp; obtain ⟨⟨q1, q2⟩, ⟨q3, q4⟩⟩ := hp; simp only at *; exact ⟨⟨by linarith, by linarith⟩, ⟨by linarith, by linarith⟩⟩
    · rw [bb] at hp; obtain ⟨⟨q1, q2⟩, ⟨q3, q4⟩⟩ := hp; simp only at *; exact ⟨⟨by linarith, by linarith⟩, ⟨by linarith, by linarith⟩⟩
    · rw [bc] at hp; obtain ⟨⟨q1, q2⟩, ⟨q3, q4⟩⟩ := hp; simp only at *; exact ⟨⟨by linarith, by linarith⟩, ⟨by linarith, by linarith⟩⟩
    · rw [bd] at hp; obtain ⟨⟨q1, q2⟩, ⟨q3, q4⟩⟩ := hp; simp only at *; exact ⟨⟨by linarith, by linarith⟩, ⟨by linarith, by linarith⟩⟩
  have lost : (g = .empty ∨ ∃ ls, g = .multiLineString ls) → (D → ∀ p, OnPath l p → ¬ InBox ⟨w, s, e, n⟩ p) →
      ∃ cs, ((clipDownTile power7 g ⟨w, s, e, n⟩ ⟨w, my, mx, n⟩ ⟨mx, my, e, n⟩ ⟨mx, s, e, my⟩ ⟨w, s, mx, my⟩).bind fun r =>
        (([a, b, c, d].zip r).filterMap fun p => p.2.map fun g => (p.1, g)).mapM fun p => (makefeature p.2).map fun g => (p.1, g)) = some cs ∧
        (∀ x ∈ cs, x.1 ∈ [a, b, c, d]) ∧ (cs.map Prod.fst).Nodup ∧ cs ≠ [] ∧ (∀ x ∈ cs, Known D fx fy l (tileBox x.1) x.2) ∧
        ∀ c' ∈ [a, b, c, d], (∃ p, OnPath l p ∧ InBox (tileBox c') p) → ∃ g', (c', g') ∈ cs := by
    intro hlost hmiss
    refine ⟨[(a, .empty), (b, .empty), (c, .empty), (d, .empty)], ?_, ?_, by simpa using hnodup, by simp, ?_, ?_⟩
    · have : clipDownTile power7 g ⟨w, s, e, n⟩ ⟨w, my, mx, n⟩ ⟨mx, my, e, n⟩ ⟨mx, s, e, my⟩ ⟨w, s, mx, my⟩ =
          some [some .empty, some .empty, some .empty, some .empty] := by
        rcases hlost with rfl | ⟨ls, rfl⟩ <;> simp [clipDownTile, isTileSquare, clip, isEmpty]
      rw [this]
      rfl
    · simp
    · intro x hx
      have hx1 : x.1 ∈ [a, b, c, d] ∧ x.2 = .empty := by
        simp only [List.mem_cons, List.not_mem_nil, or_false] at hx
        rcases hx with rfl | rfl | rfl | rfl <;> simp
      exact .inl ⟨hx1.2, fun hd p hp hb => hmiss hd p hp (sub _ hx1.1 p hb)⟩
    · intro c' hc' _
      refine ⟨.empty, ?_⟩
      simp only [List.mem_cons, List.not_mem_nil, or_false] at hc'
      rcases hc' with rfl | rfl | rfl | rfl <;> simp
  rcases hg with ⟨rfl, hmiss⟩ | ⟨⟨ls, h1, h2, h3, h4⟩, hD⟩
  · exact lost (.inl rfl) hmiss
  · cases g with
    | multiLineString ls' => exact lost (.inr ⟨_, rfl⟩) (fun d => by obtain ⟨m, hm, _⟩ := hD d; simp at hm)
    | lineString m =>
      simp only [Geom.lines, Option.some.injEq] at h1
      subst h1
      have hm : m ≠ [] := h3 m (by simp)
      simp only [onPaths_single] at h4
      have hDm : D → m.Pairwise (Dir fx fy) := by
        intro d; obtain ⟨m', q1, q2⟩ := hD d
        have : m = m' := by injection q1
        rw [this]; exact q2
      obtain ⟨vl, cl, ql⟩ := quad D fx fy power7 m hm hDm w mx hm1.le
      obtain ⟨vr, cr, qr⟩ := quad D fx fy power7 m hm hDm mx e hm2.le
      obtain ⟨ld, cld, mld, sld⟩ := ql s my hp1.le
      obtain ⟨lu, clu, mlu, slu⟩ := ql my n hp2.le
      obtain ⟨rd, crd, mrd, srd⟩ := qr s my hp1.le
      obtain ⟨ru, cru, mru, sru⟩ := qr my n hp2.le
      rw [← bd] at sld
      rw [← ba] at slu
      rw [← bc] at srd
      rw [← bb] at sru
      have hdown : clipDownTile power7 (.lineString m) ⟨w, s, e, n⟩ ⟨w, my, mx, n⟩ ⟨mx, my, e, n⟩ ⟨mx, s, e, my⟩ ⟨w, s, mx, my⟩ =
          some [if isEmpty lu then none else some lu, if isEmpty ru then none else some ru, if isEmpty rd then none else some rd,
            if isEmpty ld then none else some ld] := by
        simp [clipDownTile, isTileSquare, cl, cr, cld, clu, crd, cru]
      rw [hdown]
      simp only [Option.bind_some]
      obtain ⟨cs, hcs, hmem, hsub⟩ := four a b c d lu ru rd ld
      rw [hcs]
      have conv : ∀ x ∈ [a, b, c, d], ∀ v, Known D fx fy m (tileBox x) v → Known D fx fy l (tileBox x) v := by
        intro x hx v hv
        have hiff : ∀ p, (OnPath m p ∧ InBox (tileBox x) p) ↔ (OnPath l p ∧ InBox (tileBox x) p) := fun p =>
          ⟨fun h => ⟨((h4 p).1 h.1).1, h.2⟩, fun h => ⟨(h4 p).2 ⟨h.1, sub x hx p h.2⟩, h.2⟩⟩
        rcases hv with ⟨v1, v2⟩ | ⟨⟨ls, v1, v2, v3, v4⟩, v5⟩
        · exact .inl ⟨v1, fun d p hp hb => v2 d p ((hiff p).2 ⟨hp, hb⟩).1 hb⟩
        · exact .inr ⟨⟨ls, v1, v2, v3, fun p => by rw [v4, hiff]⟩, v5⟩
      have have_entry : ∀ c' ∈ [a, b, c, d], (∃ p, OnPath l p ∧ InBox (tileBox c') p) → ∃ g', (c', g') ∈ cs := by
        rintro c' hc' ⟨p, hp, hb⟩
        have hmp : OnPath m p := (h4 p).2 ⟨hp, sub c' hc' p hb⟩
        simp only [List.mem_cons, List.not_mem_nil, or_false] at hc'
        rcases hc' with rfl | rfl | rfl | rfl
        · rcases slu with ⟨_, h⟩ | ⟨h, _⟩
          · exact absurd hb (h p hmp)
          · exact ⟨lu, (hmem _).2 (.inl ⟨rfl, h⟩)⟩
        · rcases sru with ⟨_, h⟩ | ⟨h, _⟩
          · exact absurd hb (h p hmp)
          · exact ⟨ru, (hmem _).2 (.inr (.inl ⟨rfl, h⟩))⟩
        · rcases srd with ⟨_, h⟩ | ⟨h, _⟩
          · exact absurd hb (h p hmp)
          · exact ⟨rd, (hmem _).2 (.inr (.inr (.inl ⟨rfl, h⟩)))⟩
        · rcases sld with ⟨_, h⟩ | ⟨h, _⟩
          · exact absurd hb (h p hmp)
          · exact ⟨ld, (hmem _).2 (.inr (.inr (.inr ⟨rfl, h⟩)))⟩
      refine ⟨cs, mapM_id ?_, ?_, hsub.nodup hnodup, ?_, ?_, have_entry⟩
      · intro x hx
        rcases (hmem x).1 hx with ⟨rfl, _⟩ | ⟨rfl, _⟩ | ⟨rfl, _⟩ | ⟨rfl, _⟩ <;> assumption
      · intro x hx
        exact hsub.subset (List.mem_map_of_mem hx)
      · obtain ⟨q, hq⟩ := List.exists_mem_of_ne_nil _ hm
        obtain ⟨ql, ⟨q1, q2⟩, ⟨q3, q4⟩⟩ := (h4 q).1 (onPath_mem hq)
        simp only at q1 q2 q3 q4
        have : ∃ c' ∈ [a, b, c, d], InBox (tileBox c') q := by
          rcases le_total q.1 mx with hx | hx <;> rcases le_total q.2 my with hy | hy
          · exact ⟨d, by simp, by rw [bd]; exact ⟨⟨q1, hx⟩, ⟨q3, hy⟩⟩⟩
          · exact ⟨a, by simp, by rw [ba]; exact ⟨⟨q1, hx⟩, ⟨hy, q4⟩⟩⟩
          · exact ⟨c, by simp, by rw [bc]; exact ⟨⟨hx, q2⟩, ⟨q3, hy⟩⟩⟩
          · exact ⟨b, by simp, by rw [bb]; exact ⟨⟨hx, q2⟩, ⟨hy, q4⟩⟩⟩
        obtain ⟨c', hc', hb'⟩ := this
        obtain ⟨g', hg'⟩ := have_entry c' hc' ⟨q, ql, hb'⟩
        exact List.ne_nil_of_mem hg'
      · intro x hx
        rcases (hmem x).1 hx with ⟨rfl, h⟩ | ⟨rfl, h⟩ | ⟨rfl, h⟩ | ⟨rfl, h⟩
        · exact conv a (by simp) _ (by rcases slu with ⟨h', _⟩ | ⟨_, h'⟩; (· rw [h] at h'; simp at h'); exact h')
        · exact conv b (by simp) _ (by rcases sru with ⟨h', _⟩ | ⟨_, h'⟩; (· rw [h] at h'; simp at h'); exact h')
        · exact conv c (by simp) _ (by rcases srd with ⟨h', _⟩ | ⟨_, h'⟩; (· rw [h] at h'; simp at h'); exact h')
        · exact conv d (by simp) _ (by rcases sld with ⟨h', _⟩ | ⟨_, h'⟩; (· rw [h] at h'; simp at h'); exact h')
    | empty => simp [Geom.lines] at h1
    | point => simp [Geom.lines] at h1
    | multiPoint => simp [Geom.lines] at h1
    | multiLine => simp [Geom.lines] at h1
    | polygon => simp [Geom.lines] at h1
    | multiPolygon => simp [Geom.lines] at h1
    | square => simp [Geom.lines] at h1

/-! ### all levels -/

theorem child_box {u c : TileID} (hu : u.InGrid) (hz : u.Z ≤ 60) (hc : c ∈ children u) {p : ℝ × ℝ} (h : InBox (tileBox c) p) : InBox (tileBox u) p := by
  obtain ⟨a, b, c', d, mx, my, hch, hm1, hm2, hp1, hp2, ha, hb, hc', hd⟩ := C04_children_edges u (inGrid_noOverflow hu hz)
  rw [hch] at hc
  obtain ⟨⟨h1, h2⟩, ⟨h3, h4⟩⟩ := h
  simp only [List.mem_cons, List.not_mem_nil, or_false] at hc
  unfold tileBox at *
  rcases hc with rfl | rfl | rfl | rfl
  · rw [ha] at h1 h2 h3 h4; exact ⟨⟨by simp only at *; linarith, by simp only at *; linarith⟩, ⟨by simp only at *; linarith, by simp only at *; linarith⟩⟩
  · rw [hb] at h1 h2 h3 h4; exact ⟨⟨by simp only at *; linarith, by simp only at *; linarith⟩, ⟨by simp only at *; linarith, by simp only at *; linarith⟩⟩
  · rw [hc'] at h1 h2 h3 h4; exact ⟨⟨by simp only at *; linarith, by simp only at *; linarith⟩, ⟨by simp only at *; linarith, by simp only at *; linarith⟩⟩
  · rw [hd] at h1 h2 h3 h4; exact ⟨⟨by simp only at *; linarith, by simp only at *; linarith⟩, ⟨by simp only at *; linarith, by simp only at *; linarith⟩⟩

theorem box_child {u : TileID} (hu : u.InGrid) (hz : u.Z ≤ 60) {p : ℝ × ℝ} (h : InBox (tileBox u) p) : ∃ c ∈ children u, InBox (tileBox c) p := by
  obtain ⟨a, b, c, d, mx, my, hch, hm1, hm2, hp1, hp2, ha, hb, hc, hd⟩ := C04_children_edges u (inGrid_noOverflow hu hz)
  rw [hch]
  obtain ⟨⟨q1, q2⟩, ⟨q3, q4⟩⟩ := h
  unfold tileBox at *
  simp only at q1 q2 q3 q4
  rcases le_total p.1 mx with hx | hx <;> rcases le_total p.2 my with hy | hy
  · exact ⟨d, by simp, by rw [hd]; exact ⟨⟨q1, hx⟩, ⟨q3, hy⟩⟩⟩
  · exact ⟨a, by simp, by rw [ha]; exact ⟨⟨q1, hx⟩, ⟨hy, q4⟩⟩⟩
  · exact ⟨c, by simp, by rw [hc]; exact ⟨⟨hx, q2⟩, ⟨q3, hy⟩⟩⟩
  · exact ⟨b, by simp, by rw [hb]; exact ⟨⟨hx, q2⟩, ⟨hy, q4⟩⟩⟩

/-- The map when the tiles of zoom `cz` have been reached. -/
structure Lvl (D : Prop) (fx fy keep : Bool) (l : List (ℝ × ℝ)) (t0 : TileID) (cz : Nat) (m : List (TileID × Geom ℝ)) : Prop where
  nodup : (m.map Prod.fst).Nodup
  ent : ∀ x ∈ m, Descends t0 x.1 ∧ x.1.Z ≤ cz ∧ (keep = false → x.1.Z = cz) ∧ Known D fx fy l (tileBox x.1) x.2
  met : ∀ t, Descends t0 t → t.Z ≤ cz → (keep = true ∨ t.Z = cz) → (∃ p, OnPath l p ∧ InBox (tileBox t) p) → ∃ g, (t, g) ∈ m
  all : ∀ p, OnPath l p → ∃ t, Descends t0 t ∧ t.Z = cz ∧ InBox (tileBox t) p

theorem lvl_step (D : Prop) (fx fy keep : Bool) (l : List (ℝ × ℝ)) (hl : l ≠ []) (t0 : TileID) (h0 : t0.InGrid) (hz0 : t0.Z ≤ 63) (cz : Nat)
    (hcz0 : t0.Z ≤ cz) (hcz : cz ≤ 59) (m es : List (TileID × Geom ℝ)) (hm : Lvl D fx fy keep l t0 cz m) (hes : ∀ x, x ∈ es ↔ x ∈ m ∧ x.1.Z = cz)
    (hesn : (es.map Prod.fst).Nodup) : ∃ m', levelStep keep es m 0 = some (m', cz + 1) ∧ Lvl D fx fy keep l t0 (cz + 1) m' := by
  obtain ⟨hnd, hent, hmet, hall⟩ := hm
  have hg : ∀ x ∈ m, x.1.InGrid := fun x hx => (descends_inGrid h0 hz0 (hent x hx).1).1
  have hch : ∀ x ∈ es, _ := fun x hx => child_lines D fx fy l x.1 (hg x ((hes x).1 hx).1) (by have := ((hes x).1 hx).2; omega) x.2 (hent x ((hes x).1 hx).1).2.2.2
  have hne : es ≠ [] := by
    obtain ⟨q, hq⟩ := List.exists_mem_of_ne_nil _ hl
    obtain ⟨t, h1, h2, h3⟩ := hall q (onPath_mem hq)
    obtain ⟨g, hgm⟩ := hmet t h1 (by omega) (.inr h2) ⟨q, onPath_mem hq, h3⟩
    exact List.ne_nil_of_mem ((hes (t, g)).2 ⟨hgm, h2⟩)
  obtain ⟨m', k1, k2, k3⟩ := levelStep_iff keep cz hcz es m 0 (fun x hx => ⟨hg x ((hes x).1 hx).1, ((hes x).1 hx).2⟩) hesn
    (fun x hx => by obtain ⟨cs, c1, c2, c3, c4, _⟩ := hch x hx; exact ⟨cs, c1, c2, c3, c4⟩)
    (fun x hx e he hin => by
      have h1 := (hes e).1 he
      have h2 := (child_inGrid (hg e h1.1) (by omega) hin).2
      have := (hent x hx).2.1
      omega) hnd (.inl hne)
  refine ⟨m', k1, k2, ?_, ?_, ?_⟩
  · intro x hx
    rcases (k3 x).1 hx with ⟨e, he, cs, h1, h2⟩ | ⟨h1, h2⟩
    · obtain ⟨em, ez⟩ := (hes e).1 he
      obtain ⟨cs', c1, c2, c3, c4, c5, c6⟩ := hch e he
      rw [h1] at c1
      obtain rfl : cs = cs' := by simpa using c1
      have hz := (child_inGrid (hg e em) (by omega) (c2 x h2)).2
      exact ⟨.step (hent e em).1 (by omega) (c2 x h2), by omega, fun _ => by omega, c5 x h2⟩
    · obtain ⟨q1, q2, q3, q4⟩ := hent x h1
      refine ⟨q1, by omega, ?_, q4⟩
      intro hk
      exfalso
      rcases h2 with h2 | h2
      · rw [h2] at hk; simp at hk
      · exact h2 (List.mem_map_of_mem ((hes x).2 ⟨h1, q3 hk⟩))
  · intro t ht htz hk hp
    by_cases hzt : t.Z = cz + 1
    · cases ht with
      | refl => omega
      | step h1 h2 h3 =>
        rename_i v
        have hv := descends_inGrid h0 hz0 h1
        have hvz := (children_inGrid hv.1 h2 h3).2
        obtain ⟨p, hp1, hp2⟩ := hp
        obtain ⟨g, hgm⟩ := hmet v h1 (by omega) (.inr (by omega)) ⟨p, hp1, child_box hv.1 (by omega) h3 hp2⟩
        have hes' := (hes (v, g)).2 ⟨hgm, by simp only; omega⟩
        obtain ⟨cs, c1, c2, c3, c4, c5, c6⟩ := hch (v, g) hes'
        obtain ⟨g', hg'⟩ := c6 t h3 ⟨p, hp1, hp2⟩
        exact ⟨g', (k3 _).2 (.inl ⟨(v, g), hes', cs, c1, hg'⟩)⟩
    · have hkeep : keep = true := by
        rcases hk with h | h
        · exact h
        · exact absurd h hzt
      obtain ⟨g, hgm⟩ := hmet t ht (by omega) (.inl hkeep) hp
      exact ⟨g, (k3 _).2 (.inr ⟨hgm, .inl hkeep⟩)⟩
  · intro p hp
    obtain ⟨t, h1, h2, h3⟩ := hall p hp
    have ht := descends_inGrid h0 hz0 h1
    obtain ⟨c, hc, hb⟩ := box_child ht.1 (by omega) h3
    exact ⟨c, .step h1 (by omega) hc, by have := (child_inGrid ht.1 (by omega) hc).2; omega, hb⟩

theorem lvl_all (D : Prop) (fx fy keep : Bool) (l : List (ℝ × ℝ)) (hl : l ≠ []) (t0 : TileID) (h0 : t0.InGrid) (hz0 : t0.Z ≤ 63)
    (order : List (TileID × Geom ℝ) → List (TileID × Geom ℝ)) (horder : ∀ m, (order m).Perm m) (endzoom : Nat) (hend : endzoom ≤ 60) :
    ∀ (n fuel cz : Nat) (m : List (TileID × Geom ℝ)), cz + n = endzoom → n ≤ fuel → t0.Z ≤ cz → Lvl D fx fy keep l t0 cz m →
    ∃ m', clipLevels keep order endzoom fuel cz m = some (some m') ∧ Lvl D fx fy keep l t0 endzoom m' := by
  intro n
  induction n with
  | zero =>
    intro fuel cz m hcz _ _ hm
    obtain rfl : cz = endzoom := by omega
    refine ⟨m, ?_, hm⟩
    unfold clipLevels; rw [if_neg (by omega)]
  | succ n ih =>
    intro fuel cz m hcz hf h0z hm
    obtain ⟨f, rfl⟩ : ∃ f, fuel = f + 1 := ⟨fuel - 1, by omega⟩
    have hi : ∀ e ∈ m, i64 (e.1.Z : Int) = (e.1.Z : Int) := fun e he => i64_small (by have := (hm.ent e he).2.1; omega)
    have hmem : ∀ e, e ∈ (order m).filter (fun p => i64 p.1.Z = (cz : Int)) ↔ e ∈ m ∧ e.1.Z = cz := by
      intro e
      rw [List.mem_filter, (horder m).mem_iff]
      constructor
      · rintro ⟨h1, h2⟩
        rw [hi e h1] at h2
        exact ⟨h1, by simpa using h2⟩
      · rintro ⟨h1, h2⟩
        refine ⟨h1, ?_⟩
        rw [hi e h1]
        simpa using h2
    obtain ⟨m', s1, s2⟩ := lvl_step D fx fy keep l hl t0 h0 hz0 cz h0z (by omega) m _ hm hmem
      ((List.filter_sublist.map Prod.fst).nodup (((horder m).map Prod.fst).nodup_iff.2 hm.nodup))
    obtain ⟨m'', r1, r2⟩ := ih f (cz + 1) m' (by omega) (by omega) (by omega) s2
    refine ⟨m'', ?_, r2⟩
    unfold clipLevels
    rw [if_pos (by omega)]
    simp only [s1]
    rw [i64_small (by omega)]
    exact r1

/-! ### the first tile -/

theorem hasPoint_inBox {t : TileID} {p : ℝ × ℝ} (h : (bounds t).HasPoint p.1 p.2) : InBox (tileBox t) p := by
  unfold Extrema.HasPoint at h
  exact ⟨⟨h.1, h.2.1.le⟩, ⟨h.2.2.1.le, h.2.2.2⟩⟩

/-- The bounding box of points of the map has its corners on the map. -/
theorem corners_on_map {l : List (ℝ × ℝ)} {bb : Box ℝ} (hbb : IsBoundingBox l bb) (hmap : ∀ p ∈ l, (bounds ⟨0, 0, 0⟩).HasPoint p.1 p.2) :
    (bounds ⟨0, 0, 0⟩).HasPoint bb.E bb.N ∧ (bounds ⟨0, 0, 0⟩).HasPoint bb.E bb.S ∧ (bounds ⟨0, 0, 0⟩).HasPoint bb.W bb.N ∧
    (bounds ⟨0, 0, 0⟩).HasPoint bb.W bb.S := by
  obtain ⟨_, ⟨a, ha, hW⟩, ⟨b, hb, hE⟩, ⟨c, hc, hS⟩, ⟨d, hd, hN⟩⟩ := hbb
  obtain ⟨a1, a2, _, _⟩ := hmap a ha
  obtain ⟨b1, b2, _, _⟩ := hmap b hb
  obtain ⟨_, _, c3, c4⟩ := hmap c hc
  obtain ⟨_, _, d3, d4⟩ := hmap d hd
  rw [hW] at a1 a2; rw [hE] at b1 b2; rw [hS] at c3 c4; rw [hN] at d3 d4
  exact ⟨⟨b1, b2, d3, d4⟩, ⟨b1, b2, c3, c4⟩, ⟨a1, a2, d3, d4⟩, ⟨a1, a2, c3, c4⟩⟩

/-- Below zoom 30, the first tile is the tile of the grid at the first zoom, and the line is in it. -/
theorem first_tile {l : List (ℝ × ℝ)} {bb : Box ℝ} (hbb : IsBoundingBox l bb) (hmap : ∀ p ∈ l, (bounds ⟨0, 0, 0⟩).HasPoint p.1 p.2)
    (hlt : (getFirstZoom bb).1 < 30) : (getFirstZoom bb).2.InGrid ∧ (getFirstZoom bb).1 = (getFirstZoom bb).2.Z ∧ (getFirstZoom bb).2.Z < 29 ∧
      ∀ p, OnPath l p → InBox (tileBox (getFirstZoom bb).2) p := by
  obtain ⟨c1, c2, c3, c4⟩ := corners_on_map hbb hmap
  rcases C61_first_zoom bb with ⟨z, hz, he, ⟨s, hs, t, ht, hst⟩, hall⟩ | ⟨he, _⟩
  · have hz1 : 1 ≤ z := by
      by_contra h
      obtain rfl : z = 0 := by omega
      have key : ∀ u ∈ cornerTiles bb 0, u = ⟨0, 0, 0⟩ := by
        have k : ∀ x y, (bounds ⟨0, 0, 0⟩).HasPoint x y → tile x y (0 : Nat) = ⟨0, 0, 0⟩ := fun x y h =>
          (C05_tile_iff_in_bounds x y 0 0 0 (by norm_num) (hasPoint_lat h).1 (hasPoint_lat h).2).2 h
        intro u hu
        simp only [cornerTiles, List.mem_cons, List.not_mem_nil, or_false] at hu
        rcases hu with rfl | rfl | rfl | rfl
        · exact k _ _ c1
        · exact k _ _ c2
        · exact k _ _ c3
        · exact k _ _ c4
      exact hst ((key s hs).trans (key t ht).symm)
    obtain ⟨y, rfl⟩ : ∃ y, z = y + 1 := ⟨z - 1, by omega⟩
    rw [he]
    simp only
    rw [show (((y + 1 : Nat) : Int) - 1) = (y : Int) by omega]
    obtain ⟨g1, g2⟩ := C05_square_in_grid bb.E bb.N y (by omega) c1
    refine ⟨g1, by rw [g2], by rw [g2]; omega, ?_⟩
    have hcor := hall y (by omega)
    have hin : ∀ x w, (bounds ⟨0, 0, 0⟩).HasPoint x w → tile x w y ∈ cornerTiles bb y → (bounds (tile bb.E bb.N y)).HasPoint x w := by
      intro x w h hm
      have h1 := hcor _ hm
      have h2 : tile bb.E bb.N y = ⟨(tile bb.E bb.N y).X, (tile bb.E bb.N y).Y, y⟩ := by
        conv_lhs => rw [show tile bb.E bb.N y = ⟨(tile bb.E bb.N y).X, (tile bb.E bb.N y).Y, (tile bb.E bb.N y).Z⟩ from rfl, g2]
      rw [h2]
      rw [h2] at h1
      exact (C05_tile_iff_in_bounds x w _ _ y (by omega) (hasPoint_lat h).1 (hasPoint_lat h).2).1 h1
    have k2 := hasPoint_inBox (p := (bb.E, bb.S)) (hin _ _ c2 (by simp [cornerTiles]))
    have k3 := hasPoint_inBox (p := (bb.W, bb.N)) (hin _ _ c3 (by simp [cornerTiles]))
    apply inBox_path
    intro p hp
    obtain ⟨⟨b1, b2⟩, ⟨b3, b4⟩⟩ := hbb.1 p hp
    obtain ⟨⟨q1, q2⟩, ⟨q3, q4⟩⟩ := k2
    obtain ⟨⟨r1, r2⟩, ⟨r3, r4⟩⟩ := k3
    simp only at *
    exact ⟨⟨by linarith, by linarith⟩, ⟨by linarith, by linarith⟩⟩
  · rw [he] at hlt; simp at hlt

/-- C68: `C68_feature` for polygons on the map. `bb` is the bounding box of the polygon's vertices. -/
theorem C68_feature_on_map (order : List (TileID × Geom ℝ) → List (TileID × Geom ℝ)) (horder : ∀ m, (order m).Perm m)
    (fuel : Nat) (g : Geom ℝ) (hg : g.IsArea) (hne : g ≠ .polygon []) (hmap : ∀ p ∈ g.pts, (bounds ⟨0, 0, 0⟩).HasPoint p.1 p.2)
    (bb : Box ℝ) (hbb : IsBoundingBox g.pts bb) (endzoom : Nat) (keep : Bool) (hend : endzoom ≤ 30)
    (hfirst : (getFirstZoom bb).1 < endzoom) (hfuel : endzoom ≤ fuel) (p : ℝ × ℝ) (t : TileID) (ht : Descends (getFirstZoom bb).2 t)
    (htz : t.Z = endzoom) (hfar : FarFrom (2 * (1 / 10 ^ 7 : ℝ) * (endzoom - (getFirstZoom bb).2.Z)) g.rings p)
    (hdeep : DeepInBox (tileBox t) (2 * (1 / 10 ^ 7 : ℝ) * (endzoom - (getFirstZoom bb).2.Z)) p) (hc : g.covers .y p = true) :
    ∃ m, clipFeature order fuel g bb endzoom keep = some (some m) ∧ ∃ g', (t, g') ∈ m ∧ g'.covers .y p = true := by
  obtain ⟨h1, h2, _, _⟩ := first_tile hbb hmap (by omega)
  exact C68_feature order horder fuel g hg hne bb endzoom keep (by omega) h1 h2 hfirst hfuel p t ht htz hfar hdeep hc

/-- **C84.** `ClipFeature` of a line on the map (`bb` its bounding box), for every end zoom up to 30 deeper than its first zoom, every
iteration order of the maps, with or without parents: it neither panics nor runs for ever; the line is in the first tile; every entry is
for a descendant of the first tile (without parents: of the end zoom), no tile twice; its geometry is exactly the part of the line in
that tile, or it has none; every such tile the line meets has an entry, and the end-zoom tiles reach every point of the line; and if the
line never turns back (in particular if it is a segment), the entry of every tile it meets has exactly the part of the line in that tile. -/
theorem C84_lines (order : List (TileID × Geom ℝ) → List (TileID × Geom ℝ)) (horder : ∀ m, (order m).Perm m) (fuel : Nat)
    (l : List (ℝ × ℝ)) (hl : l ≠ []) (hmap : ∀ p ∈ l, (bounds ⟨0, 0, 0⟩).HasPoint p.1 p.2) (bb : Box ℝ) (hbb : IsBoundingBox l bb)
    (endzoom : Nat) (hend : endzoom ≤ 30) (keep : Bool) (hfirst : (getFirstZoom bb).1 < endzoom) (hfuel : endzoom ≤ fuel) :
    ∃ m, clipFeature order fuel (.lineString l) bb endzoom keep = some (some m) ∧
      (∀ p, OnPath l p → InBox (tileBox (getFirstZoom bb).2) p) ∧ (m.map Prod.fst).Nodup ∧
      (∀ t g, (t, g) ∈ m → Descends (getFirstZoom bb).2 t ∧ t.InGrid ∧ t.Z ≤ endzoom ∧ (keep = false → t.Z = endzoom) ∧
        (g = .empty ∨ IsPart l (tileBox t) g)) ∧
      (∀ t, Descends (getFirstZoom bb).2 t → t.Z ≤ endzoom → (keep = true ∨ t.Z = endzoom) → (∃ p, OnPath l p ∧ InBox (tileBox t) p) →
        ∃ g, (t, g) ∈ m ∧ (Steady l → IsPart l (tileBox t) g)) ∧
      (∀ p, OnPath l p → ∃ t g, (t, g) ∈ m ∧ t.Z = endzoom ∧ InBox (tileBox t) p) := by
  obtain ⟨hgrid, hz, _, hin⟩ := first_tile hbb hmap (by omega)
  unfold clipFeature
  simp only [if_neg (not_le.2 hfirst)]
  generalize (getFirstZoom bb).2 = t0 at *
  generalize (getFirstZoom bb).1 = z0 at *
  subst hz
  obtain ⟨fx, fy, hdir⟩ : ∃ fx fy, Steady l → l.Pairwise (Dir fx fy) := by
    by_cases hs : Steady l
    · obtain ⟨fx, fy, h⟩ := steady_dir hs; exact ⟨fx, fy, fun _ => h⟩
    · exact ⟨true, true, fun h => absurd h hs⟩
  have hstart : Lvl (Steady l) fx fy keep l t0 t0.Z [(t0, .lineString l)] := by
    refine ⟨by simp, ?_, ?_, ?_⟩
    · intro x hx
      simp only [List.mem_singleton] at hx
      subst hx
      refine ⟨.refl, le_rfl, fun _ => rfl, .inr ⟨⟨[l], rfl, by simp, by simpa using hl, ?_⟩, fun d => ⟨l, rfl, hdir d⟩⟩⟩
      intro p
      rw [onPaths_single]
      exact ⟨fun h => ⟨h, hin p h⟩, fun h => h.1⟩
    · intro t ht htz _ _
      rcases descends_first ht with h | ⟨c, h1, h2, h3⟩
      · subst h; exact ⟨.lineString l, by simp⟩
      · have hc := children_inGrid hgrid h2 h1
        have := descends_zoom hc.1 (by omega) h3
        omega
    · intro p hp
      exact ⟨t0, .refl, rfl, hin p hp⟩
  obtain ⟨m, h1, h2⟩ := lvl_all (Steady l) fx fy keep l hl t0 hgrid (by omega) order horder endzoom (by omega) (endzoom - t0.Z) fuel t0.Z _
    (by omega) (by omega) le_rfl hstart
  refine ⟨m, h1, hin, h2.nodup, ?_, ?_, ?_⟩
  · intro t g htg
    obtain ⟨q1, q2, q3, q4⟩ := h2.ent (t, g) htg
    refine ⟨q1, (descends_inGrid hgrid (by omega) q1).1, q2, q3, ?_⟩
    rcases q4 with q4 | q4
    · exact .inl q4.1
    · exact .inr q4.1
  · intro t ht htz hk hp
    obtain ⟨g, hg⟩ := h2.met t ht htz hk hp
    refine ⟨g, hg, fun hs => ?_⟩
    obtain ⟨_, _, _, q4⟩ := h2.ent (t, g) hg
    obtain ⟨p, hp1, hp2⟩ := hp
    rcases q4 with q4 | q4
    · exact absurd hp2 (q4.2 hs p hp1)
    · exact q4.1
  · intro p hp
    obtain ⟨t, t1, t2, t3⟩ := h2.all p hp
    obtain ⟨g, hg⟩ := h2.met t t1 (by omega) (.inr t2) ⟨p, hp, t3⟩
    exact ⟨t, g, hg, t2, t3⟩

/-! ### shallow features -/

theorem upTo_ancestor (e : Nat) : ∀ (d fuel : Nat) (t : TileID), t.InGrid → t.Z ≤ 60 → t.Z = e + d → d ≤ fuel →
    ∃ t', upTo e fuel t = some t' ∧ Descends t' t ∧ t'.Z = e ∧ t'.InGrid := by
  intro d
  induction d with
  | zero =>
    intro fuel t hg hz he _
    exact ⟨t, upTo_stop (by rw [i64_small (by omega)]; omega), .refl, he, hg⟩
  | succ d ih =>
    intro fuel t hg hz he hf
    obtain ⟨f, rfl⟩ : ∃ f, fuel = f + 1 := ⟨fuel - 1, by omega⟩
    rw [upTo_go (by rw [i64_small (by omega)]; omega)]
    obtain ⟨v, ⟨v1, v2, v3⟩, _⟩ := C03_unique_parent t hg (by omega) (by omega)
    rw [C06_parent_of_child v t (inGrid_noOverflow v1 (by omega)) v3]
    obtain ⟨t', h1, h2, h3, h4⟩ := ih f v v1 (by omega) (by omega) (by omega)
    exact ⟨t', h1, .step h2 (by omega) v3, h3, h4⟩

/-- **C84.** A line on the map whose first tile is at the end zoom or deeper (but was found, i.e. is below zoom 30) is stored whole, under
its first tile and under the ancestor of that tile at the end zoom, and nowhere else. -/
theorem C84_shallow (order : List (TileID × Geom ℝ) → List (TileID × Geom ℝ)) (fuel : Nat)
    (l : List (ℝ × ℝ)) (hmap : ∀ p ∈ l, (bounds ⟨0, 0, 0⟩).HasPoint p.1 p.2) (bb : Box ℝ) (hbb : IsBoundingBox l bb)
    (endzoom : Nat) (keep : Bool) (hfirst : (getFirstZoom bb).1 ≥ endzoom) (hlt : (getFirstZoom bb).1 < 30) (hfuel : 30 ≤ fuel) :
    ∃ m t', clipFeature order fuel (.lineString l) bb endzoom keep = some (some m) ∧ (m.map Prod.fst).Nodup ∧
      (∀ p, OnPath l p → InBox (tileBox (getFirstZoom bb).2) p) ∧ Descends t' (getFirstZoom bb).2 ∧ t'.InGrid ∧ t'.Z = endzoom ∧
      ∀ t g, (t, g) ∈ m ↔ (t = t' ∨ t = (getFirstZoom bb).2) ∧ g = .lineString l := by
  obtain ⟨hgrid, hz, h29, hin⟩ := first_tile hbb hmap hlt
  unfold clipFeature
  simp only [if_pos hfirst]
  generalize (getFirstZoom bb).2 = t0 at *
  generalize (getFirstZoom bb).1 = z0 at *
  subst hz
  obtain ⟨t', h1, h2, h3, h4⟩ := upTo_ancestor endzoom (t0.Z - endzoom) fuel t0 hgrid (by omega) (by omega) (by omega)
  refine ⟨mapSet [(t0, .lineString l)] t' (.lineString l), t', by simp [h1, makefeature], mapSet_keys _ _ _ (by simp), hin, h2, h4, h3, ?_⟩
  intro t g
  simp only [mapSet, List.mem_append, List.mem_filter, List.mem_singleton, Prod.mk.injEq, decide_eq_true_eq]
  constructor
  · rintro (⟨⟨rfl, rfl⟩, _⟩ | ⟨rfl, rfl⟩)
    · exact ⟨.inr rfl, rfl⟩
    · exact ⟨.inl rfl, rfl⟩
  · rintro ⟨h | h, rfl⟩
    · exact .inr ⟨h, rfl⟩
    · by_cases ht : t = t'
      · exact .inr ⟨ht, rfl⟩
      · exact .inl ⟨⟨h, rfl⟩, ht⟩

/-! ### lost geometry -/

theorem child_lost (l : List (ℝ × ℝ)) (hl : l ≠ []) (k c : TileID) (hk : k.InGrid) (hz : k.Z ≤ 60) (hc : c ∈ children k)
    (hst : stretches .x (bounds c).W (bounds c).E l ≠ 1) (cs : List (TileID × Geom ℝ)) (hcs : childEntries k (.lineString l) = some cs) :
    (c, .empty) ∈ cs := by
  obtain ⟨a, b, c', d, mx, my, hch, hm1, hm2, hp1, hp2, ha, hb, hc', hd⟩ := C04_children_edges k (inGrid_noOverflow hk hz)
  have ba : tileBox a = ⟨(bounds k).W, my, mx, (bounds k).N⟩ := by unfold tileBox; rw [ha]
  have bb : tileBox b = ⟨mx, my, (bounds k).E, (bounds k).N⟩ := by unfold tileBox; rw [hb]
  have bc : tileBox c' = ⟨mx, (bounds k).S, (bounds k).E, my⟩ := by unfold tileBox; rw [hc']
  have bd : tileBox d = ⟨(bounds k).W, (bounds k).S, mx, my⟩ := by unfold tileBox; rw [hd]
  have bk : tileBox k = ⟨(bounds k).W, (bounds k).S, (bounds k).E, (bounds k).N⟩ := rfl
  unfold childEntries at hcs
  rw [hch] at hcs hc
  simp only [ba, bb, bc, bd, Option.bind_eq_bind] at hcs
  rw [bk] at hcs
  have key : ∀ w e, w ≤ e → ∃ v, clip power7 (.lineString l) w e .x = some v ∧ (stretches .x w e l ≠ 1 → ∃ o, v = .multiLineString o) ∧
      ∀ s n, s ≤ n → ∃ v2, clip power7 v s n .y = some v2 ∧ makefeature v2 = some v2 := by
    intro w e hwe
    obtain ⟨v, q1, q2⟩ := quad False true true power7 l hl (fun h => h.elim) w e hwe
    refine ⟨v, q1, ?_, fun s n hsn => by obtain ⟨v2, r1, r2, _⟩ := q2 s n hsn; exact ⟨v2, r1, r2⟩⟩
    intro hne
    obtain ⟨o1, h1, _⟩ := C37_line_exact l w e .x hwe hl
    have hlen : o1.length = stretches .x w e l := by
      have := clipLoop_stretches .x hwe l ⟨[], []⟩ o1 (fun _ _ _ => .inl rfl) h1
      simpa using this
    simp only [clip, h1, Option.map_some, Option.some.injEq] at q1
    exact ⟨o1, by rw [← q1, lineResult_one (by omega)]⟩
  obtain ⟨vl, cl, nl, ql⟩ := key (bounds k).W mx hm1.le
  obtain ⟨vr, cr, nr, qr⟩ := key mx (bounds k).E hm2.le
  obtain ⟨ld, cld, mld⟩ := ql _ _ hp1.le
  obtain ⟨lu, clu, mlu⟩ := ql _ _ hp2.le
  obtain ⟨rd, crd, mrd⟩ := qr _ _ hp1.le
  obtain ⟨ru, cru, mru⟩ := qr _ _ hp2.le
  have hdown : clipDownTile power7 (.lineString l) ⟨(bounds k).W, (bounds k).S, (bounds k).E, (bounds k).N⟩ ⟨(bounds k).W, my, mx, (bounds k).N⟩
      ⟨mx, my, (bounds k).E, (bounds k).N⟩ ⟨mx, (bounds k).S, (bounds k).E, my⟩ ⟨(bounds k).W, (bounds k).S, mx, my⟩ =
      some [if isEmpty lu then none else some lu, if isEmpty ru then none else some ru, if isEmpty rd then none else some rd,
        if isEmpty ld then none else some ld] := by
    simp [clipDownTile, isTileSquare, cl, cr, cld, clu, crd, cru]
  rw [hdown] at hcs
  simp only [Option.bind_some] at hcs
  obtain ⟨cs', h1, hmem, _⟩ := four a b c' d lu ru rd ld
  rw [h1] at hcs
  rw [mapM_id (by
    intro x hx
    rcases (hmem x).1 hx with ⟨rfl, _⟩ | ⟨rfl, _⟩ | ⟨rfl, _⟩ | ⟨rfl, _⟩ <;> assumption)] at hcs
  obtain rfl : cs' = cs := by simpa using hcs
  have drop : ∀ {o : List (List (ℝ × ℝ))} {s n : ℝ} {v2 : Geom ℝ}, clip power7 (.multiLineString o) s n .y = some v2 → v2 = .empty := by
    intro o s n v2 h; simpa [clip, eq_comm] using h
  rw [hmem]
  simp only [List.mem_cons, List.not_mem_nil, or_false] at hc
  rcases hc with rfl | rfl | rfl | rfl
  · rw [ha] at hst; obtain ⟨o, rfl⟩ := nl hst; obtain rfl := drop clu; exact .inl ⟨rfl, rfl⟩
  · rw [hb] at hst; obtain ⟨o, rfl⟩ := nr hst; obtain rfl := drop cru; exact .inr (.inl ⟨rfl, rfl⟩)
  · rw [hc'] at hst; obtain ⟨o, rfl⟩ := nr hst; obtain rfl := drop crd; exact .inr (.inr (.inl ⟨rfl, rfl⟩))
  · rw [hd] at hst; obtain ⟨o, rfl⟩ := nl hst; obtain rfl := drop cld; exact .inr (.inr (.inr ⟨rfl, rfl⟩))

/-- **C84 (false part).** One zoom below the first tile: the entry of every tile in whose range of longitudes the line has no or several
stretches has no geometry, even if the line passes through that tile. -/
theorem C84_lost (order : List (TileID × Geom ℝ) → List (TileID × Geom ℝ)) (horder : ∀ m, (order m).Perm m) (fuel : Nat) (hf : 1 ≤ fuel)
    (l : List (ℝ × ℝ)) (hl : l ≠ []) (hmap : ∀ p ∈ l, (bounds ⟨0, 0, 0⟩).HasPoint p.1 p.2) (bb : Box ℝ) (hbb : IsBoundingBox l bb)
    (keep : Bool) (hlt : (getFirstZoom bb).1 < 30) (c : TileID) (hc : c ∈ children (getFirstZoom bb).2)
    (hst : stretches .x (bounds c).W (bounds c).E l ≠ 1) :
    ∃ m, clipFeature order fuel (.lineString l) bb ((getFirstZoom bb).1 + 1) keep = some (some m) ∧ (c, .empty) ∈ m := by
  obtain ⟨hgrid, hz, h29, hin⟩ := first_tile hbb hmap hlt
  unfold clipFeature
  simp only [if_neg (show ¬ (getFirstZoom bb).1 ≥ (getFirstZoom bb).1 + 1 by omega)]
  generalize (getFirstZoom bb).2 = t0 at *
  generalize (getFirstZoom bb).1 = z0 at *
  subst hz
  obtain ⟨cs, c1, c2, c3, c4, _⟩ := child_lines False true true l t0 hgrid (by omega) (.lineString l)
    (.inr ⟨⟨[l], rfl, by simp, by simpa using hl, fun p => by rw [onPaths_single]; exact ⟨fun h => ⟨h, hin p h⟩, fun h => h.1⟩⟩, fun h => h.elim⟩)
  obtain ⟨f, rfl⟩ : ∃ f, fuel = f + 1 := ⟨fuel - 1, by omega⟩
  have ho : order [(t0, .lineString l)] = [(t0, .lineString l)] := List.perm_singleton.1 (horder _)
  obtain ⟨m', k1, _, k3⟩ := levelStep_iff keep t0.Z (by omega) [(t0, .lineString l)] [(t0, .lineString l)] 0
    (by simpa using hgrid) (by simp) (by simpa using ⟨cs, c1, by simpa using c2, by simpa using c3, c4⟩)
    (by
      simp only [List.mem_singleton, forall_eq]
      intro h
      have := (child_inGrid hgrid (by omega) h).2
      omega) (by simp) (.inl (by simp))
  refine ⟨m', ?_, (k3 _).2 (.inl ⟨(t0, .lineString l), by simp, cs, c1, child_lost l hl t0 c hgrid (by omega) hc hst cs c1⟩)⟩
  unfold clipLevels
  rw [if_pos (by omega), ho]
  rw [List.filter_cons_of_pos (by simp only [decide_eq_true_eq]; exact i64_small (by omega)), List.filter_nil, k1]
  simp only
  unfold clipLevels
  rw [if_neg (by rw [i64_small (by omega)]; omega)]

/-! ### multi-lines -/

theorem child_blank (k : TileID) (hk : k.InGrid) (hz : k.Z ≤ 60) (g : Geom ℝ) (hg : g = .empty ∨ ∃ ls, g = .multiLineString ls) :
    childEntries k g = some ((children k).map fun c => (c, .empty)) := by
  obtain ⟨a, b, c, d, mx, my, hch, _⟩ := C04_children_edges k (inGrid_noOverflow hk hz)
  unfold childEntries
  rw [hch]
  have : ∀ b0 b1 b2 b3 b4 : Box ℝ, clipDownTile power7 g b0 b1 b2 b3 b4 = some [some .empty, some .empty, some .empty, some .empty] := by
    intro b0 b1 b2 b3 b4
    rcases hg with rfl | ⟨ls, rfl⟩ <;> simp [clipDownTile, isTileSquare, clip, isEmpty]
  simp only [this]
  rfl

/-- The map of a multi-line when the tiles of zoom `cz` have been reached. -/
structure Blank (keep : Bool) (t0 : TileID) (g0 : Geom ℝ) (cz : Nat) (m : List (TileID × Geom ℝ)) : Prop where
  nodup : (m.map Prod.fst).Nodup
  ent : ∀ x ∈ m, Descends t0 x.1 ∧ x.1.Z ≤ cz ∧ (keep = false → x.1.Z = cz) ∧ x.2 = if x.1 = t0 then g0 else .empty
  all : ∀ t, Descends t0 t → t.Z ≤ cz → (keep = true ∨ t.Z = cz) → ∃ g, (t, g) ∈ m

theorem blank_step (keep : Bool) (ls : List (List (ℝ × ℝ))) (t0 : TileID) (h0 : t0.InGrid) (hz0 : t0.Z ≤ 63) (cz : Nat) (hcz0 : t0.Z ≤ cz)
    (hcz : cz ≤ 59) (m es : List (TileID × Geom ℝ)) (hm : Blank keep t0 (.multiLineString ls) cz m) (hes : ∀ x, x ∈ es ↔ x ∈ m ∧ x.1.Z = cz)
    (hesn : (es.map Prod.fst).Nodup) (hdesc : ∃ t, Descends t0 t ∧ t.Z = cz) :
    ∃ m', levelStep keep es m 0 = some (m', cz + 1) ∧ Blank keep t0 (.multiLineString ls) (cz + 1) m' := by
  obtain ⟨hnd, hent, hall⟩ := hm
  have hg : ∀ x ∈ m, x.1.InGrid := fun x hx => (descends_inGrid h0 hz0 (hent x hx).1).1
  have hch : ∀ x ∈ es, childEntries x.1 x.2 = some ((children x.1).map fun c => (c, .empty)) := by
    intro x hx
    obtain ⟨xm, xz⟩ := (hes x).1 hx
    apply child_blank x.1 (hg x xm) (by omega)
    have := (hent x xm).2.2.2
    by_cases h : x.1 = t0
    · rw [if_pos h] at this; exact .inr ⟨ls, this⟩
    · rw [if_neg h] at this; exact .inl this
  have hne : es ≠ [] := by
    obtain ⟨t, h1, h2⟩ := hdesc
    obtain ⟨g, hgm⟩ := hall t h1 (by omega) (.inr h2)
    exact List.ne_nil_of_mem ((hes (t, g)).2 ⟨hgm, h2⟩)
  obtain ⟨m', k1, k2, k3⟩ := levelStep_iff keep cz hcz es m 0 (fun x hx => ⟨hg x ((hes x).1 hx).1, ((hes x).1 hx).2⟩) hesn
    (fun x hx => by
      obtain ⟨xm, xz⟩ := (hes x).1 hx
      refine ⟨_, hch x hx, ?_, ?_, ?_⟩
      · intro y hy
        obtain ⟨c, hc, rfl⟩ := List.mem_map.1 hy
        exact hc
      · rw [List.map_map]
        have : (Prod.fst ∘ fun c : TileID => (c, (Geom.empty : Geom ℝ))) = id := rfl
        rw [this, List.map_id]
        exact (C03_children_distinct_in_grid x.1 (hg x xm) (by omega)).2.1
      · obtain ⟨a, b, c, d, mx, my, hc, _⟩ := C04_children_edges x.1 (inGrid_noOverflow (hg x xm) (by omega))
        rw [hc]; simp)
    (fun x hx e he hin => by
      have h1 := (hes e).1 he
      have h2 := (child_inGrid (hg e h1.1) (by omega) hin).2
      have := (hent x hx).2.1
      omega) hnd (.inl hne)
  refine ⟨m', k1, k2, ?_, ?_⟩
  · intro x hx
    rcases (k3 x).1 hx with ⟨e, he, cs, h1, h2⟩ | ⟨h1, h2⟩
    · obtain ⟨em, ez⟩ := (hes e).1 he
      rw [hch e he] at h1
      obtain rfl : _ = cs := Option.some.inj h1
      obtain ⟨c, hc, rfl⟩ := List.mem_map.1 h2
      have hz := (child_inGrid (hg e em) (by omega) hc).2
      refine ⟨.step (hent e em).1 (by omega) hc, by simp only; omega, fun _ => by simp only; omega, ?_⟩
      rw [if_neg]
      intro h
      have := congrArg TileID.Z h
      simp only at this
      omega
    · obtain ⟨q1, q2, q3, q4⟩ := hent x h1
      refine ⟨q1, by omega, ?_, q4⟩
      intro hk
      exfalso
      rcases h2 with h2 | h2
      · rw [h2] at hk; simp at hk
      · exact h2 (List.mem_map_of_mem ((hes x).2 ⟨h1, q3 hk⟩))
  · intro t ht htz hk
    by_cases hzt : t.Z = cz + 1
    · cases ht with
      | refl => omega
      | step h1 h2 h3 =>
        rename_i v
        have hv := descends_inGrid h0 hz0 h1
        have hvz := (children_inGrid hv.1 h2 h3).2
        obtain ⟨g, hgm⟩ := hall v h1 (by omega) (.inr (by omega))
        have hes' := (hes (v, g)).2 ⟨hgm, by simp only; omega⟩
        exact ⟨.empty, (k3 _).2 (.inl ⟨(v, g), hes', _, hch _ hes', List.mem_map_of_mem h3⟩)⟩
    · have hkeep : keep = true := by
        rcases hk with h | h
        · exact h
        · exact absurd h hzt
      obtain ⟨g, hgm⟩ := hall t ht (by omega) (.inl hkeep)
      exact ⟨g, (k3 _).2 (.inr ⟨hgm, .inl hkeep⟩)⟩

theorem exists_descendant {t0 : TileID} (h0 : t0.InGrid) (hz0 : t0.Z ≤ 60) : ∀ n, t0.Z + n ≤ 60 → ∃ t, Descends t0 t ∧ t.Z = t0.Z + n := by
  intro n
  induction n with
  | zero => intro _; exact ⟨t0, .refl, rfl⟩
  | succ n ih =>
    intro h
    obtain ⟨t, h1, h2⟩ := ih (by omega)
    have hg := descends_inGrid h0 (by omega) h1
    obtain ⟨a, b, c, d, mx, my, hc, _⟩ := C04_children_edges t (inGrid_noOverflow hg.1 (by omega))
    have ha : a ∈ children t := by rw [hc]; simp
    exact ⟨a, .step h1 (by omega) ha, by have := (child_inGrid hg.1 (by omega) ha).2; omega⟩

theorem blank_all (keep : Bool) (ls : List (List (ℝ × ℝ))) (t0 : TileID) (h0 : t0.InGrid) (hz0 : t0.Z ≤ 60)
    (order : List (TileID × Geom ℝ) → List (TileID × Geom ℝ)) (horder : ∀ m, (order m).Perm m) (endzoom : Nat) (hend : endzoom ≤ 60) :
    ∀ (n fuel cz : Nat) (m : List (TileID × Geom ℝ)), cz + n = endzoom → n ≤ fuel → t0.Z ≤ cz → Blank keep t0 (.multiLineString ls) cz m →
    ∃ m', clipLevels keep order endzoom fuel cz m = some (some m') ∧ Blank keep t0 (.multiLineString ls) endzoom m' := by
  intro n
  induction n with
  | zero =>
    intro fuel cz m hcz _ _ hm
    obtain rfl : cz = endzoom := by omega
    refine ⟨m, ?_, hm⟩
    unfold clipLevels; rw [if_neg (by omega)]
  | succ n ih =>
    intro fuel cz m hcz hf h0z hm
    obtain ⟨f, rfl⟩ : ∃ f, fuel = f + 1 := ⟨fuel - 1, by omega⟩
    have hi : ∀ e ∈ m, i64 (e.1.Z : Int) = (e.1.Z : Int) := fun e he => i64_small (by have := (hm.ent e he).2.1; omega)
    have hmem : ∀ e, e ∈ (order m).filter (fun p => i64 p.1.Z = (cz : Int)) ↔ e ∈ m ∧ e.1.Z = cz := by
      intro e
      rw [List.mem_filter, (horder m).mem_iff]
      constructor
      · rintro ⟨h1, h2⟩
        rw [hi e h1] at h2
        exact ⟨h1, by simpa using h2⟩
      · rintro ⟨h1, h2⟩
        refine ⟨h1, ?_⟩
        rw [hi e h1]
        simpa using h2
    obtain ⟨m', s1, s2⟩ := blank_step keep ls t0 h0 (by omega) cz h0z (by omega) m _ hm hmem
      ((List.filter_sublist.map Prod.fst).nodup (((horder m).map Prod.fst).nodup_iff.2 hm.nodup))
      (by obtain ⟨t, h1, h2⟩ := exists_descendant h0 hz0 (cz - t0.Z) (by omega); exact ⟨t, h1, by omega⟩)
    obtain ⟨m'', r1, r2⟩ := ih f (cz + 1) m' (by omega) (by omega) (by omega) s2
    refine ⟨m'', ?_, r2⟩
    unfold clipLevels
    rw [if_pos (by omega)]
    simp only [s1]
    rw [i64_small (by omega)]
    exact r1

/-- **C84 (false part).** `ClipFeature` of a MultiLineString on the map, deeper than its first tile: there is an entry for every
descendant of the first tile at the end zoom (with parents: at every zoom), whether or not the lines meet it, and none but the first
tile's own has a geometry. -/
theorem C84_multiline_lost (order : List (TileID × Geom ℝ) → List (TileID × Geom ℝ)) (horder : ∀ m, (order m).Perm m) (fuel : Nat)
    (ls : List (List (ℝ × ℝ))) (hmap : ∀ p ∈ ls.flatten, (bounds ⟨0, 0, 0⟩).HasPoint p.1 p.2) (bb : Box ℝ) (hbb : IsBoundingBox ls.flatten bb)
    (endzoom : Nat) (hend : endzoom ≤ 30) (keep : Bool) (hfirst : (getFirstZoom bb).1 < endzoom) (hfuel : endzoom ≤ fuel) :
    ∃ m, clipFeature order fuel (.multiLineString ls) bb endzoom keep = some (some m) ∧ (m.map Prod.fst).Nodup ∧
      ∀ t g, (t, g) ∈ m ↔ Descends (getFirstZoom bb).2 t ∧ t.Z ≤ endzoom ∧ (keep = true ∨ t.Z = endzoom) ∧
        g = if t = (getFirstZoom bb).2 then .multiLineString ls else .empty := by
  obtain ⟨hgrid, hz, h29, _⟩ := first_tile hbb hmap (by omega)
  unfold clipFeature
  simp only [if_neg (not_le.2 hfirst)]
  generalize (getFirstZoom bb).2 = t0 at *
  generalize (getFirstZoom bb).1 = z0 at *
  subst hz
  have hstart : Blank keep t0 (.multiLineString ls) t0.Z [(t0, .multiLineString ls)] := by
    refine ⟨by simp, ?_, ?_⟩
    · intro x hx
      simp only [List.mem_singleton] at hx
      subst hx
      exact ⟨.refl, le_rfl, fun _ => rfl, by simp⟩
    · intro t ht htz _
      rcases descends_first ht with h | ⟨c, h1, h2, h3⟩
      · subst h; exact ⟨.multiLineString ls, by simp⟩
      · have hc := children_inGrid hgrid h2 h1
        have := descends_zoom hc.1 (by omega) h3
        omega
  obtain ⟨m, h1, h2⟩ := blank_all keep ls t0 hgrid (by omega) order horder endzoom (by omega) (endzoom - t0.Z) fuel t0.Z _
    (by omega) (by omega) le_rfl hstart
  refine ⟨m, h1, h2.nodup, fun t g => ⟨fun h => ?_, fun ⟨q1, q2, q3, q4⟩ => ?_⟩⟩
  · obtain ⟨q1, q2, q3, q4⟩ := h2.ent _ h
    refine ⟨q1, q2, ?_, q4⟩
    cases keep
    · exact .inr (q3 rfl)
    · exact .inl rfl
  · obtain ⟨g', hg'⟩ := h2.all t q1 q2 q3
    have := (h2.ent _ hg').2.2.2
    simp only at this
    rw [q4, ← this]
    exact hg'

/-- The hypotheses of `C84_lines` for the segment from (-90,-45) to (90,45). -/
theorem C84_example : let l : List (ℝ × ℝ) := [(-90, -45), (90, 45)]
    (∀ p ∈ l, (bounds ⟨0, 0, 0⟩).HasPoint p.1 p.2) ∧ IsBoundingBox l ⟨-90, -45, 90, 45⟩ ∧ (getFirstZoom ⟨-90, -45, 90, 45⟩).1 < (1 : Nat) ∧ Steady l := by
  intro l
  refine ⟨?_, ?_, by rw [C61_world_example]; norm_num, steady_segment _ _⟩
  · intro p hp
    simp only [l, List.mem_cons, List.not_mem_nil, or_false] at hp
    have key : ∀ x y : ℝ, -180 ≤ x → x < 180 → -45 ≤ y → y ≤ 45 → (bounds ⟨0, 0, 0⟩).HasPoint x y := by
      intro x y h1 h2 h3 h4
      have := world_tile x y h1 h2 h3 h4
      exact (C05_tile_iff_in_bounds x y 0 0 0 (by norm_num) (by linarith) (by linarith)).1 (by exact_mod_cast this)
    rcases hp with rfl | rfl
    · exact key _ _ (by norm_num) (by norm_num) (by norm_num) (by norm_num)
    · exact key _ _ (by norm_num) (by norm_num) (by norm_num) (by norm_num)
  · unfold IsBoundingBox InBox
    simp only [l, List.mem_cons, List.not_mem_nil, or_false, forall_eq_or_imp, forall_eq, exists_eq_or_imp, exists_eq_left]
    norm_num

/-- The stretches of `C84_lost`: a line that goes east over the meridian 0 and comes back has two stretches west of it. -/
example : stretches .x (-180 : ℚ) 0 [(-90, -45), (90, 0), (-90, 45)] = 2 := by decide +kernel

end Verif.Clip
