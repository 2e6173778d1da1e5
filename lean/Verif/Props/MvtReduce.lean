import Verif.Model.MvtReduce
import Verif.Proof.MvtClip

/-!
# C41 (line simplification) and C42 (point thinning)
-/
namespace Verif.Reduce
open Verif.Tid Verif.Go Verif.Clip

/-! ### C41 -/
section anyArith
variable {F : Type} [Zero F] [One F] [Add F] [Sub F] [Mul F] [Div F] [LinearOrder F]

/-- `i` to `j` is a gap: every vertex strictly between has squared distance at most `tol` from the segment joining them. -/
def GapOK (xy : Nat → F × F) (tol : F) (a b : Nat) : Prop :=
  a < b ∧ ∀ i, a < i → i < b → sqSegDist (xy i) (xy a) (xy b) ≤ tol

/-- What `scan` returns after looking at the vertices of `l`. -/
theorem scan_fold (coords : List (Vertex F)) (xy : Nat → F × F) (a b : F × F) (mid : Int) (tol : F)
    : ∀ (l : List Nat) (s : Scan F), (∀ i ∈ l, i < coords.length) → (∀ i v, coords[i]? = some v → v.xy = xy i) →
    tol ≤ s.maxD →
    ∃ r, l.foldlM (scanStep coords a b mid) s = some r ∧ s.maxD ≤ r.maxD ∧
      (∀ i ∈ l, sqSegDist (xy i) a b ≤ r.maxD) ∧
      ((r.index = s.index ∧ r.maxD = s.maxD) ∨ (r.index ∈ l ∧ sqSegDist (xy r.index) a b = r.maxD)) := by
  intro l
  induction l with
  | nil => intro s _ _ _; exact ⟨s, rfl, le_rfl, by simp, .inl ⟨rfl, rfl⟩⟩
  | cons i l ih =>
    intro s hl hxy hs
    have hi : i < coords.length := hl i (by simp)
    have hv : (coords[i]).xy = xy i := hxy i _ (List.getElem?_eq_getElem hi)
    obtain ⟨s', hs', h1, h2, h3⟩ : ∃ s', scanStep coords a b mid s i = some s' ∧ s.maxD ≤ s'.maxD ∧
        sqSegDist (xy i) a b ≤ s'.maxD ∧
        ((s'.index = s.index ∧ s'.maxD = s.maxD) ∨ (s'.index = i ∧ sqSegDist (xy i) a b = s'.maxD)) := by
      unfold scanStep
      rw [List.getElem?_eq_getElem hi]
      simp only [hv]
      split
      · rename_i h
        exact ⟨_, rfl, h.le, le_rfl, .inr ⟨rfl, rfl⟩⟩
      · rename_i h
        split
        · rename_i heq
          split
          · exact ⟨_, rfl, le_rfl, heq.le, .inr ⟨rfl, heq⟩⟩
          · exact ⟨_, rfl, le_rfl, heq.le, .inl ⟨rfl, rfl⟩⟩
        · exact ⟨_, rfl, le_rfl, (not_lt.1 h), .inl ⟨rfl, rfl⟩⟩
    obtain ⟨r, hr, g1, g2, g3⟩ := ih s' (fun j hj => hl j (by simp [hj])) hxy (hs.trans h1)
    refine ⟨r, ?_, h1.trans g1, ?_, ?_⟩
    · rw [List.foldlM_cons, hs']; exact hr
    · intro j hj
      rcases List.mem_cons.1 hj with rfl | hj
      · exact h2.trans g1
      · exact g2 j hj
    · rcases g3 with ⟨e1, e2⟩ | ⟨e1, e2⟩
      · rcases h3 with ⟨e3, e4⟩ | ⟨e3, e4⟩
        · exact .inl ⟨e1.trans e3, e2.trans e4⟩
        · right
          rw [e1, e3, e2]
          exact ⟨by simp, e4⟩
      · exact .inr ⟨by simp [e1], e2⟩

theorem setImp_some (coords : List (Vertex F)) (i : Nat) (d : F) (h : i < coords.length) :
    ∃ c, setImp coords i d = some c ∧ c.length = coords.length ∧ (∀ j : Nat, c[j]?.map Vertex.xy = coords[j]?.map Vertex.xy) ∧
      c[i]?.map Vertex.imp = some d ∧ ∀ j : Nat, j ≠ i → c[j]? = coords[j]? := by
  refine ⟨coords.set i ⟨(coords[i]).xy, d⟩, ?_, by simp, ?_, ?_, ?_⟩
  · unfold setImp; rw [List.getElem?_eq_getElem h]
  · intro j
    rw [List.getElem?_set]
    split
    · rename_i hij; subst hij; simp [h]
    · rfl
  · simp [h]
  · intro j hj; rw [List.getElem?_set, if_neg (Ne.symm hj)]

/-- `i` was found farthest, at the squared distance `d` above the tolerance, from the segment joining two of `V` around it. -/
def Farthest (xy : Nat → F × F) (tol : F) (V : List Nat) (i : Nat) (d : F) : Prop :=
  d > tol ∧ ∃ a ∈ V, ∃ b ∈ V, a < i ∧ i < b ∧ d = sqSegDist (xy i) (xy a) (xy b) ∧
    ∀ j, a < j → j < b → sqSegDist (xy j) (xy a) (xy b) ≤ d

theorem Farthest.mono {xy : Nat → F × F} {tol : F} {V W : List Nat} {i : Nat} {d : F} (h : Farthest xy tol V i d)
    (hVW : ∀ a ∈ V, a ∈ W) : Farthest xy tol W i d := by
  obtain ⟨h0, a, ha, b, hb, h⟩ := h
  exact ⟨h0, a, hVW a ha, b, hVW b hb, h⟩

theorem simplify_spec (tol : F) (n : Nat) (xy : Nat → F × F) : ∀ (fuel : Nat) (coords : List (Vertex F)) (first last : Nat),
    coords.length = n → (∀ i v, coords[i]? = some v → v.xy = xy i) → first < last → last < n → last - first ≤ fuel + 1 →
    ∃ (r : List (Vertex F)) (S : List Nat), simplify tol fuel coords first last = some (some r) ∧ r.length = n ∧
      (∀ i v, r[i]? = some v → v.xy = xy i) ∧
      (∀ i, i ∉ S → r[i]? = coords[i]?) ∧ (∀ i ∈ S, ∃ v, r[i]? = some v ∧ Farthest xy tol (first :: S ++ [last]) i v.imp) ∧
      (first :: S ++ [last]).IsChain (GapOK xy tol) := by
  intro fuel
  induction fuel with
  | zero =>
    intro coords first last hn hxy hfl hl hf
    have hscan : ∃ s, scan coords first last tol = some s ∧ s.maxD = tol := by
      unfold scan
      rw [List.getElem?_eq_getElem (by omega), List.getElem?_eq_getElem (by omega)]
      rw [show last - first - 1 = 0 by omega]
      exact ⟨_, rfl, rfl⟩
    obtain ⟨s, hs, hm⟩ := hscan
    refine ⟨coords, [], ?_, hn, hxy, by simp, by simp, ?_⟩
    · unfold simplify; rw [hs]; simp [hm]
    · simp only [List.cons_append, List.nil_append, List.isChain_cons_cons, List.isChain_singleton, and_true]
      exact ⟨hfl, fun i h1 h2 => by omega⟩
  | succ fuel ih =>
    intro coords first last hn hxy hfl hl hf
    have h1 : first < coords.length := by omega
    have h2 : last < coords.length := by omega
    have hs : ∃ s, scan coords first last tol = some s ∧ tol ≤ s.maxD ∧
        (∀ i, first < i → i < last → sqSegDist (xy i) (xy first) (xy last) ≤ s.maxD) ∧
        (s.maxD > tol → first < s.index ∧ s.index < last ∧ s.maxD = sqSegDist (xy s.index) (xy first) (xy last)) := by
      unfold scan
      rw [List.getElem?_eq_getElem h1, List.getElem?_eq_getElem h2]
      simp only
      rw [hxy first _ (List.getElem?_eq_getElem h1), hxy last _ (List.getElem?_eq_getElem h2)]
      obtain ⟨r, hr, g1, g2, g3⟩ := scan_fold coords xy (xy first) (xy last) ((3 * last - 3 * first : Int) / 2) tol
        (List.range' (first + 1) (last - first - 1)) ⟨0, tol, 3 * last - 3 * first⟩
        (by intro i hi; rw [List.mem_range'_1] at hi; omega) hxy le_rfl
      refine ⟨r, hr, g1, ?_, ?_⟩
      · intro i hi1 hi2; exact g2 i (by rw [List.mem_range'_1]; omega)
      · intro hgt
        rcases g3 with ⟨-, g⟩ | ⟨g, e⟩
        · rw [g] at hgt; exact absurd hgt (lt_irrefl _)
        · rw [List.mem_range'_1] at g
          exact ⟨by omega, by omega, e.symm⟩
    obtain ⟨s, hs, hmono, hall, hidx⟩ := hs
    rw [simplify, hs]
    simp only
    by_cases hgt : s.maxD > tol
    · obtain ⟨hi1, hi2, hi3⟩ := hidx hgt
      rw [if_pos hgt]
      have hleft : ∃ c1 S1, (if 3 * s.index > 3 * first + 3 then simplify tol fuel coords first s.index else some (some coords)) =
          some (some c1) ∧ c1.length = n ∧ (∀ i v, c1[i]? = some v → v.xy = xy i) ∧ (∀ i, i ∉ S1 → c1[i]? = coords[i]?) ∧
          (∀ i ∈ S1, ∃ v, c1[i]? = some v ∧ Farthest xy tol (first :: S1 ++ [s.index]) i v.imp) ∧ (first :: S1 ++ [s.index]).IsChain (GapOK xy tol) := by
        split
        · obtain ⟨r, S, h⟩ := ih coords first s.index hn hxy hi1 (by omega) (by omega)
          exact ⟨r, S, h⟩
        · refine ⟨coords, [], rfl, hn, hxy, by simp, by simp, ?_⟩
          simp only [List.cons_append, List.nil_append, List.isChain_cons_cons, List.isChain_singleton, and_true]
          exact ⟨hi1, fun i _ _ => by omega⟩
      obtain ⟨c1, S1, e1, l1, x1, o1, m1, ch1⟩ := hleft
      rw [e1]
      simp only
      obtain ⟨c2, e2, l2, x2, d2, o2⟩ := setImp_some c1 s.index s.maxD (by omega)
      rw [e2]
      simp only
      have x2' : ∀ i v, c2[i]? = some v → v.xy = xy i := by
        intro i v hv
        have := x2 i
        rw [hv] at this
        simp only [Option.map_some] at this
        obtain ⟨w, hw, hwe⟩ := Option.map_eq_some_iff.1 this.symm
        rw [← hwe]; exact x1 i w hw
      have hright : ∃ c3 S2, (if 3 * last > 3 * s.index + 3 then simplify tol fuel c2 s.index last else some (some c2)) =
          some (some c3) ∧ c3.length = n ∧ (∀ i v, c3[i]? = some v → v.xy = xy i) ∧ (∀ i, i ∉ S2 → c3[i]? = c2[i]?) ∧
          (∀ i ∈ S2, ∃ v, c3[i]? = some v ∧ Farthest xy tol (s.index :: S2 ++ [last]) i v.imp) ∧ (s.index :: S2 ++ [last]).IsChain (GapOK xy tol) := by
        split
        · obtain ⟨r, S, h⟩ := ih c2 s.index last (by omega) x2' hi2 hl (by omega)
          exact ⟨r, S, h⟩
        · refine ⟨c2, [], rfl, by omega, x2', by simp, by simp, ?_⟩
          simp only [List.cons_append, List.nil_append, List.isChain_cons_cons, List.isChain_singleton, and_true]
          exact ⟨hi2, fun i _ _ => by omega⟩
      obtain ⟨c3, S2, e3, l3, x3, o3, m3, ch3⟩ := hright
      refine ⟨c3, S1 ++ s.index :: S2, e3, l3, x3, ?_, ?_, ?_⟩
      · intro i hi
        simp only [List.mem_append, List.mem_cons, not_or] at hi
        rw [o3 i hi.2.2, o2 i hi.2.1, o1 i hi.1]
      · intro i hi
        by_cases hiS2 : i ∈ S2
        · obtain ⟨v, hv, hf⟩ := m3 i hiS2
          exact ⟨v, hv, hf.mono (by intro a ha; simp only [List.cons_append, List.mem_cons, List.mem_append, List.not_mem_nil, or_false] at ha ⊢; tauto)⟩
        · by_cases hii : i = s.index
          · subst hii
            rw [o3 _ hiS2]
            obtain ⟨v, hv, hvd⟩ := Option.map_eq_some_iff.1 d2
            exact ⟨v, hv, by rw [hvd]; exact ⟨hgt, first, by simp, last, by simp, hi1, hi2, hi3, hall⟩⟩
          · have : i ∈ S1 := by
              simp only [List.mem_append, List.mem_cons] at hi; tauto
            rw [o3 _ hiS2, o2 _ hii]
            obtain ⟨v, hv, hf⟩ := m1 i this
            exact ⟨v, hv, hf.mono (by intro a ha; simp only [List.cons_append, List.mem_cons, List.mem_append, List.not_mem_nil, or_false] at ha ⊢; tauto)⟩
      · have : first :: (S1 ++ s.index :: S2) ++ [last] = (first :: S1) ++ s.index :: (S2 ++ [last]) := by simp
        rw [this, List.isChain_split]
        exact ⟨ch1, ch3⟩
    · rw [if_neg hgt]
      refine ⟨coords, [], rfl, hn, hxy, by simp, by simp, ?_⟩
      simp only [List.cons_append, List.nil_append, List.isChain_cons_cons, List.isChain_singleton, and_true]
      exact ⟨hfl, fun i h1 h2 => (hall i h1 h2).trans (not_lt.1 hgt)⟩

/-- **C41.** For every slice of vertices and every pair of positions `first < last` in it, `Simplify` terminates without
indexing out of range and marks a set `S` of vertices strictly between them: it writes only their importance, leaves every
other entry as it was, and every vertex between two neighbours `a < b` of `first, S, last` is within the squared tolerance of
the segment from `a` to `b`. The importance of a marked vertex is above the tolerance; it is its squared distance from the
segment joining two of `first, S, last` on either side of it, the greatest of all vertices between those two. No assumption on
the arithmetic. -/
theorem C41_simplify (coords : List (Vertex F)) (first last : Nat) (tol : F) (hfl : first < last) (hl : last < coords.length) :
    ∃ (r : List (Vertex F)) (S : List Nat), simplify tol (last - first) coords first last = some (some r) ∧
      r.map (·.xy) = coords.map (·.xy) ∧
      (∀ i ∈ S, first < i ∧ i < last) ∧
      (∀ i, i ∉ S → r[i]? = coords[i]?) ∧
      (∀ i ∈ S, ∃ u, r[i]? = some u ∧ u.imp > tol ∧ ∃ a ∈ first :: S, ∃ b ∈ S ++ [last], a < i ∧ i < b ∧
        (∀ v w, coords[a]? = some v → coords[b]? = some w → u.imp = sqSegDist u.xy v.xy w.xy) ∧
        ∀ j, a < j → j < b → ∀ x v w, coords[j]? = some x → coords[a]? = some v → coords[b]? = some w →
          sqSegDist x.xy v.xy w.xy ≤ u.imp) ∧
      (first :: S ++ [last]).IsChain (fun a b => a < b ∧ ∀ i, a < i → i < b → ∀ u v w, coords[i]? = some u →
        coords[a]? = some v → coords[b]? = some w → sqSegDist u.xy v.xy w.xy ≤ tol) := by
  obtain ⟨r, S, h1, h2, h3, h4, h5, h6⟩ := simplify_spec tol coords.length (fun i => (coords[i]?.map (·.xy)).getD (coords[0]'(by omega)).xy)
    (last - first) coords first last rfl (by intro i v hv; simp [hv]) hfl hl (by omega)
  have hp : (first :: S ++ [last]).Pairwise (· < ·) := by
    rw [← List.isChain_iff_pairwise]
    exact h6.imp fun a b h => h.1
  rw [List.cons_append, List.pairwise_cons, List.pairwise_append] at hp
  have hin : ∀ i ∈ S, first < i ∧ i < last := fun i hi => ⟨hp.1 i (by simp [hi]), hp.2.2.2 i hi last (by simp)⟩
  refine ⟨r, S, h1, ?_, hin, h4, ?_, ?_⟩
  · apply List.ext_getElem?
    intro i
    rw [List.getElem?_map, List.getElem?_map]
    by_cases hi : i < coords.length
    · have := h3 i _ (List.getElem?_eq_getElem (by omega))
      rw [List.getElem?_eq_getElem (show i < r.length by omega), List.getElem?_eq_getElem hi]
      simp only [Option.map_some, this]
      rw [List.getElem?_eq_getElem hi]; rfl
    · rw [List.getElem?_eq_none (by omega), List.getElem?_eq_none (by omega)]
  · intro i hi
    obtain ⟨u, hu, hd, a, ha, b, hb, hai, hib, he, hall⟩ := h5 i hi
    have hu' := h3 i u hu
    refine ⟨u, hu, hd, a, ?_, b, ?_, hai, hib, ?_, ?_⟩
    · simp only [List.cons_append, List.mem_cons, List.mem_append, List.not_mem_nil, or_false] at ha ⊢
      rcases ha with h | h | h
      · exact .inl h
      · exact .inr h
      · have := (hin i hi).2; omega
    · simp only [List.cons_append, List.mem_cons, List.mem_append, List.not_mem_nil, or_false] at hb ⊢
      rcases hb with h | h | h
      · have := (hin i hi).1; omega
      · exact .inl h
      · exact .inr h
    · intro v w hv hw
      rw [he, hu']
      simp [hv, hw]
    · intro j hj1 hj2 x v w hx hv hw
      have := hall j hj1 hj2
      simpa [hx, hv, hw] using this
  · refine h6.imp fun a b h => ⟨h.1, fun i h1 h2 u v w hu hv hw => ?_⟩
    have := h.2 i h1 h2
    simpa [hu, hv, hw] using this

/-! ### C42 -/

/-- The grid cell of a point or multi-point. -/
def cell (tl : F × F → TileID) (ofLen : Nat → F) : Feat F → Option TileID
  | .point p => some (tl p)
  | .multiPoint ps => some (tl (mean ofLen ps))
  | _ => none

open Classical in
theorem run_spec (tl : F × F → TileID) (ofLen : Nat → F) : ∀ (fs : List (Feat F)) (c : Config F), c.operate = true →
    ∀ (i : Nat) f k, fs[i]? = some f → cell tl ofLen f = some k →
    ((runFilter tl ofLen fs c)[i]?.map Prod.fst = some (decide (k ∉ c.seen ∧ ∀ (j : Nat) g, j < i → fs[j]? = some g → cell tl ofLen g ≠ some k)))
    := by
  intro fs
  induction fs with
  | nil => intro c _ i f k h; simp at h
  | cons f0 fs ih =>
    intro c hc i f k hf hk
    have hop : (filter tl ofLen f0 c).2.2.operate = true := by
      unfold filter; cases f0 <;> simp [hc] <;> split <;> simp [hc]
    have hseen : ∀ k, k ∈ (filter tl ofLen f0 c).2.2.seen ↔ k ∈ c.seen ∨ cell tl ofLen f0 = some k := by
      intro k
      unfold filter cell
      cases f0 with
      | point p =>
        simp only [hc, Bool.not_true, Bool.false_eq_true, if_false, Option.some.injEq]
        split
        · rename_i h; simp only; constructor
          · exact .inl
          · rintro (h' | rfl) <;> assumption
        · simp only [List.mem_cons]; constructor
          · rintro (rfl | h) <;> simp [*]
          · rintro (h | rfl) <;> simp [*]
      | multiPoint ps =>
        simp only [hc, Bool.not_true, Bool.false_eq_true, if_false, Option.some.injEq]
        split
        · rename_i h; simp only; constructor
          · exact .inl
          · rintro (h' | rfl) <;> assumption
        · simp only [List.mem_cons]; constructor
          · rintro (rfl | h) <;> simp [*]
          · rintro (h | rfl) <;> simp [*]
      | shape w h => simp [hc]
      | other => simp [hc]
    cases i with
    | zero =>
      simp only [List.getElem?_cons_zero, Option.some.injEq] at hf
      subst hf
      simp only [runFilter, List.getElem?_cons_zero, Option.map_some, Option.some.injEq]
      have : (filter tl ofLen f0 c).1 = decide (k ∉ c.seen) := by
        unfold filter
        cases f0 with
        | point p =>
          simp only [cell, Option.some.injEq] at hk; subst hk
          simp only [hc]; by_cases h : tl p ∈ c.seen <;> simp [h]
        | multiPoint ps =>
          simp only [cell, Option.some.injEq] at hk; subst hk
          simp only [hc]; by_cases h : tl (mean ofLen ps) ∈ c.seen <;> simp [h]
        | shape w h => simp [cell] at hk
        | other => simp [cell] at hk
      rw [this]; congr 1; simp
    | succ i =>
      simp only [List.getElem?_cons_succ] at hf
      simp only [runFilter, List.getElem?_cons_succ]
      rw [ih _ hop i f k hf hk]
      congr 1
      rw [decide_eq_decide]
      constructor
      · rintro ⟨h1, h2⟩
        rw [hseen, not_or] at h1
        refine ⟨h1.1, ?_⟩
        intro j g hj hg
        cases j with
        | zero =>
          simp only [List.getElem?_cons_zero, Option.some.injEq] at hg
          rw [← hg]; exact h1.2
        | succ j => exact h2 j g (by omega) (by simpa using hg)
      · rintro ⟨h1, h2⟩
        refine ⟨?_, ?_⟩
        · rw [hseen, not_or]; exact ⟨h1, h2 0 f0 (by omega) (by simp)⟩
        · intro j g hj hg; exact h2 (j + 1) g (by omega) (by simpa using hg)

/-- **C42.** Over any sequence of `Filter` calls with a fresh config a point feature (or a multi-point, by its mean) is kept
exactly when no earlier one, kept or not, fell into its grid cell: the first of each cell is kept, no other. -/
theorem C42_first_of_each_cell (tl : F × F → TileID) (ofLen : Nat → F) (fs : List (Feat F)) (c : Config F)
    (hc : c.operate = true) (hfresh : c.seen = []) (i : Nat) (f : Feat F) (k : TileID) (hf : fs[i]? = some f)
    (hk : cell tl ofLen f = some k) :
    ∃ kept f', (runFilter tl ofLen fs c)[i]? = some (kept, f') ∧
      (kept = true ↔ ∀ j g, j < i → fs[j]? = some g → cell tl ofLen g ≠ some k) := by
  have h := run_spec tl ofLen fs c hc i f k hf hk
  obtain ⟨⟨kept, f'⟩, h1, h2⟩ := Option.map_eq_some_iff.1 h
  refine ⟨kept, f', h1, ?_⟩
  simp only at h2
  rw [h2, hfresh]
  simp

/-- **C42.** At most one point feature per cell is kept. -/
theorem C42_at_most_one_per_cell (tl : F × F → TileID) (ofLen : Nat → F) (fs : List (Feat F)) (c : Config F)
    (hc : c.operate = true) (i j : Nat) (f g f' g' : Feat F) (k : TileID) (hij : i ≠ j) (hf : fs[i]? = some f)
    (hg : fs[j]? = some g) (hfk : cell tl ofLen f = some k) (hgk : cell tl ofLen g = some k) :
    ¬ ((runFilter tl ofLen fs c)[i]? = some (true, f') ∧ (runFilter tl ofLen fs c)[j]? = some (true, g')) := by
  rintro ⟨h1, h2⟩
  have a := run_spec tl ofLen fs c hc i f k hf hfk
  have b := run_spec tl ofLen fs c hc j g k hg hgk
  rw [h1] at a
  rw [h2] at b
  simp only [Option.map_some, Option.some.injEq] at a b
  have a' := @of_decide_eq_true _ (_) a.symm
  have b' := @of_decide_eq_true _ (_) b.symm
  rcases lt_or_gt_of_ne hij with h | h
  · exact b'.2 i f h hf hfk
  · exact a'.2 j g h hg hgk

/-- **C42.** A disabled filter keeps everything and changes nothing. -/
theorem C42_disabled (tl : F × F → TileID) (ofLen : Nat → F) (fs : List (Feat F)) (c : Config F) (hc : c.operate = false) :
    runFilter tl ofLen fs c = fs.map fun f => (true, f) := by
  induction fs with
  | nil => rfl
  | cons f fs ih =>
    have : filter tl ofLen f c = (true, f, c) := by unfold filter; simp [hc]
    simp only [runFilter, this, List.map_cons, ih]

/-- **C42.** A kept multi-point comes back as the point at its mean; every other kept feature is unchanged. -/
theorem C42_kept_feature (tl : F × F → TileID) (ofLen : Nat → F) (f : Feat F) (c : Config F) (hc : c.operate = true)
    (h : (filter tl ofLen f c).1 = true) :
    (filter tl ofLen f c).2.1 = match f with | .multiPoint ps => .point (mean ofLen ps) | f => f := by
  unfold filter at h ⊢
  cases f with
  | multiPoint ps =>
    simp only [hc, Bool.not_true, Bool.false_eq_true, if_false] at h ⊢
    split at h <;> rename_i h'
    · simp at h
    · rw [if_neg h']
  | point p =>
    simp only [hc, Bool.not_true, Bool.false_eq_true, if_false] at h ⊢
    split <;> rfl
  | shape w h' => simp [hc]
  | other => simp [hc]

end anyArith

/-! ### exact arithmetic -/
section exact
variable {F : Type} [Field F] [LinearOrder F] [IsStrictOrderedRing F]

/-- Squared Euclidean distance. -/
def sqDist (p q : F × F) : F := (p.1 - q.1) ^ 2 + (p.2 - q.2) ^ 2

/-- **C41.** Over exact arithmetic the distance `Simplify` uses is the squared distance to the segment: attained at one of its
points and not above the squared distance to any of them. -/
theorem C41_distance_exact (p a b : F × F) :
    (∃ q, OnSeg a b q ∧ sqSegDist p a b = sqDist p q) ∧ ∀ q, OnSeg a b q → sqSegDist p a b ≤ sqDist p q := by
  have hsq : ∀ c : F × F, (p.1 - c.1) * (p.1 - c.1) + (p.2 - c.2) * (p.2 - c.2) = sqDist p c := by
    intro c; unfold sqDist; ring
  by_cases hd : b.1 - a.1 ≠ 0 ∨ b.2 - a.2 ≠ 0
  · have hpos : 0 < (b.1 - a.1) * (b.1 - a.1) + (b.2 - a.2) * (b.2 - a.2) := by
      rcases hd with h | h
      · have := mul_self_pos.2 h; nlinarith [mul_self_nonneg (b.2 - a.2)]
      · have := mul_self_pos.2 h; nlinarith [mul_self_nonneg (b.1 - a.1)]
    set D := (b.1 - a.1) * (b.1 - a.1) + (b.2 - a.2) * (b.2 - a.2) with hD
    set N := (p.1 - a.1) * (b.1 - a.1) + (p.2 - a.2) * (b.2 - a.2) with hN
    -- distance along the line
    have hquad : ∀ s, sqDist p (lerp a b s) = sqDist p a - 2 * s * N + s * s * D := by
      intro s; unfold sqDist lerp; simp only [hN, hD]; ring
    unfold sqSegDist
    simp only [hd, if_true]
    rw [← hD, ← hN]
    by_cases h1 : N / D > 1
    · rw [if_pos h1, hsq]
      have hND : D < N := by rwa [gt_iff_lt, lt_div_iff₀ hpos, one_mul] at h1
      refine ⟨⟨b, onSeg_right _ _, rfl⟩, ?_⟩
      rintro q ⟨s, s0, s1, rfl⟩
      have hb := hquad 1
      rw [lerp_one] at hb
      rw [hb, hquad]
      nlinarith [mul_nonneg (sub_nonneg.2 s1) (sub_nonneg.2 hND.le), mul_nonneg (mul_nonneg (sub_nonneg.2 s1) (sub_nonneg.2 s1)) hpos.le]
    · rw [if_neg h1]
      by_cases h2 : N / D > 0
      · rw [if_pos h2]
        have hle : N / D ≤ 1 := not_lt.1 h1
        rw [hsq (a.1 + (b.1 - a.1) * (N / D), a.2 + (b.2 - a.2) * (N / D))]
        have hq : (a.1 + (b.1 - a.1) * (N / D), a.2 + (b.2 - a.2) * (N / D)) = lerp a b (N / D) := by
          unfold lerp; rw [mul_comm (b.1 - a.1), mul_comm (b.2 - a.2)]
        rw [hq]
        refine ⟨⟨_, ⟨N / D, h2.le, hle, rfl⟩, rfl⟩, ?_⟩
        rintro q ⟨s, s0, s1, rfl⟩
        rw [hquad, hquad]
        have hND : N = N / D * D := by field_simp
        generalize N / D = u at hND
        rw [hND]
        nlinarith [mul_nonneg (mul_self_nonneg (s - u)) hpos.le]
      · rw [if_neg h2, hsq]
        have hND : N ≤ 0 := by
          by_contra h; exact h2 (div_pos (not_le.1 h) hpos)
        refine ⟨⟨a, onSeg_left _ _, rfl⟩, ?_⟩
        rintro q ⟨s, s0, s1, rfl⟩
        rw [hquad]
        nlinarith [mul_nonneg s0 (neg_nonneg.2 hND), mul_nonneg (mul_nonneg s0 s0) hpos.le]
  · unfold sqSegDist
    simp only [hd, if_false]
    rw [hsq]
    rw [not_or, not_not, not_not] at hd
    refine ⟨⟨a, onSeg_left _ _, rfl⟩, ?_⟩
    rintro q ⟨s, s0, s1, rfl⟩
    have : lerp a b s = a := by unfold lerp; rw [hd.1, hd.2]; simp
    rw [this]

/-- **C42.** The mean of a multi-point, exactly: both coordinates are averaged over all points. -/
theorem C42_mean (ps : List (F × F)) :
    mean (fun n => (n : F)) ps = ((ps.map Prod.fst).sum / ps.length, (ps.map Prod.snd).sum / ps.length) := by
  have h : ∀ (ps : List (F × F)) (s : F × F), ps.foldl (fun s p => (s.1 + p.1, s.2 + p.2)) s = (s.1 + (ps.map Prod.fst).sum, s.2 + (ps.map Prod.snd).sum) := by
    intro ps
    induction ps with
    | nil => intro s; simp
    | cons p ps ih => intro s; simp only [List.foldl_cons, ih, List.map_cons, List.sum_cons, add_assoc]
  unfold mean
  simp only [h, zero_add]

/-- A zig-zag of five vertices: the middle one is kept (importance 4), the others are within the tolerance. -/
example : (simplify (1 : ℚ) 4 [⟨(0, 0), 0⟩, ⟨(1, 1), 0⟩, ⟨(2, 2), 0⟩, ⟨(3, 1), 0⟩, ⟨(4, 0), 0⟩] 0 4).map
    (Option.map (List.map Vertex.imp)) = some (some [0, 0, 4, 0, 0]) := by decide +kernel

/-- Two points of one cell, then one of another. -/
example : (runFilter (fun p : ℚ × ℚ => ⟨⌊p.1⌋, ⌊p.2⌋, 3⟩) (fun n => (n : ℚ)) [.point (1 / 2, 0), .point (3 / 4, 0), .point (2, 0)]
    ⟨1 / 200, 1, 1, [], true⟩).map (·.1) = [true, false, true] := by decide +kernel

end exact
end Verif.Reduce
