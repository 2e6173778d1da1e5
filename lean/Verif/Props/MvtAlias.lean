import Verif.Model.MvtAlias
import Verif.Model.MvtClipFloat
import Verif.Model.MvtDefaults
import Mathlib.Algebra.Order.Field.Basic
import Mathlib.Tactic.Linarith

/-!
# C87: closing rings in the caller's memory
-/
namespace Verif.Alias
open Verif.Clip

variable {P : Type}

/-- The slice lies in an existing array, with its capacity. -/
def Slice.Ok (h : Heap P) (s : Slice) : Prop := s.len ≤ s.cap ∧ ∃ l, h[s.arr]? = some l ∧ s.off + s.cap ≤ l.length

/-- The cells two slices may use, up to their capacity, are different. -/
def Apart (s t : Slice) : Prop := s.arr ≠ t.arr ∨ s.off + s.cap ≤ t.off ∨ t.off + t.cap ≤ s.off

theorem Apart.symm {s t : Slice} (h : Apart s t) : Apart t s := by
  rcases h with h | h | h
  · exact .inl (Ne.symm h)
  · exact .inr (.inr h)
  · exact .inr (.inl h)

/-- What one ring becomes, as a list of points. -/
def ringV (act : P → P → Act) (r : List P) : Option (List P) :=
  match r.head?, r.getLast? with
  | some f, some l =>
    match act f l with
    | .append => some (r ++ [f])
    | .overwrite => some (r.dropLast ++ [f])
    | .keep => some r
  | _, _ => none

theorem read_eq {h : Heap P} {s : Slice} {l : List P} (hl : h[s.arr]? = some l) : h.read s = (l.drop s.off).take s.len := by
  unfold Heap.read
  rw [List.getD_eq_getElem?_getD, hl]
  rfl

theorem read_length {h : Heap P} {s : Slice} (hs : s.Ok h) : (h.read s).length = s.len := by
  obtain ⟨h1, l, hl, h2⟩ := hs
  rw [read_eq hl, List.length_take, List.length_drop]
  omega

theorem write_get {h : Heap P} {a i : Nat} {p : P} (b : Nat) :
    (h.write a i p)[b]? = (h[b]?).map fun l => if a = b then l.set i p else l := by
  unfold Heap.write
  rw [List.getElem?_modify]
  split
  · subst_vars; simp
  · simp [*]

theorem Ok.write {h : Heap P} {a i : Nat} {p : P} {s : Slice} (hs : s.Ok h) : s.Ok (h.write a i p) := by
  obtain ⟨h1, l, hl, h2⟩ := hs
  refine ⟨h1, if a = s.arr then l.set i p else l, by rw [write_get, hl]; rfl, ?_⟩
  split <;> simpa using h2

theorem read_write_apart {h : Heap P} {s t : Slice} {i : Nat} {p : P} (ht : t.Ok h) (hst : Apart s t) (h1 : s.off ≤ i)
    (h2 : i < s.off + s.cap) : (h.write s.arr i p).read t = h.read t := by
  obtain ⟨h3, l, hl, h4⟩ := ht
  rw [read_eq hl, read_eq (l := if s.arr = t.arr then l.set i p else l) (by rw [write_get, hl]; rfl)]
  split
  · rename_i ha
    apply List.ext_getElem?
    intro j
    rw [List.getElem?_take, List.getElem?_take]
    split
    · rw [List.getElem?_drop, List.getElem?_drop, List.getElem?_set_ne]
      rcases hst with h | h | h
      · exact absurd ha h
      · omega
      · omega
    · rfl
  · rfl

theorem read_write_self {h : Heap P} {s : Slice} {j : Nat} {p : P} (hs : s.Ok h) (hj : j < s.len) :
    (h.write s.arr (s.off + j) p).read s = (h.read s).set j p := by
  obtain ⟨h3, l, hl, h4⟩ := hs
  rw [read_eq hl, read_eq (l := l.set (s.off + j) p) (by rw [write_get, hl]; simp)]
  rw [List.drop_set, if_neg (by omega), List.take_set]
  congr 1
  omega

theorem Ok.snoc {h : Heap P} {a : List P} {s : Slice} (hs : s.Ok h) : s.Ok (h ++ [a]) := by
  obtain ⟨h1, l, hl, h2⟩ := hs
  exact ⟨h1, l, by rw [List.getElem?_append_left (List.getElem?_eq_some_iff.1 hl).1]; exact hl, h2⟩

theorem read_snoc {h : Heap P} {a : List P} {s : Slice} (hs : s.Ok h) : (h ++ [a]).read s = h.read s := by
  obtain ⟨h1, l, hl, h2⟩ := hs
  rw [read_eq hl, read_eq (l := l) (by rw [List.getElem?_append_left (List.getElem?_eq_some_iff.1 hl).1]; exact hl)]

theorem append_read {room : Nat → Nat} {nil : P} {h : Heap P} {s : Slice} (hs : s.Ok h) (p : P) :
    (h.append room nil s p).1.read (h.append room nil s p).2 = h.read s ++ [p] ∧ (h.append room nil s p).2.Ok (h.append room nil s p).1 := by
  unfold Heap.append
  split
  · rename_i hc
    obtain ⟨h1, l, hl, h2⟩ := hs
    have hg : (h.write s.arr (s.off + s.len) p)[s.arr]? = some (l.set (s.off + s.len) p) := by rw [write_get, hl]; simp
    refine ⟨?_, ⟨hc, l.set (s.off + s.len) p, hg, by simpa using h2⟩⟩
    rw [read_eq (s := { s with len := s.len + 1 }) hg, read_eq hl]
    simp only
    rw [List.drop_set, if_neg (by omega), List.take_succ, List.getElem?_set]
    simp only [Nat.add_sub_cancel_left, if_true, List.length_drop]
    rw [if_pos (by omega), List.take_set_of_le (by omega)]
    rfl
  · rename_i hc
    have hlen : (h.read s).length = s.len := read_length hs
    have hg : (h ++ [h.read s ++ [p] ++ List.replicate (room s.len) nil])[h.length]? =
        some (h.read s ++ [p] ++ List.replicate (room s.len) nil) := by simp
    refine ⟨?_, ⟨by simp, _, hg, by simp [hlen]; omega⟩⟩
    rw [read_eq (s := ⟨h.length, 0, s.len + 1, s.len + 1 + room s.len⟩) hg]
    simp only [List.drop_zero]
    rw [List.take_append_of_le_length (by simp [hlen]), List.take_of_length_le (by simp [hlen])]

theorem append_frame {room : Nat → Nat} {nil : P} {h : Heap P} {s t : Slice} (_hs : s.Ok h) (ht : t.Ok h) (hst : Apart s t) (p : P) :
    (h.append room nil s p).1.read t = h.read t ∧ t.Ok (h.append room nil s p).1 ∧ Apart (h.append room nil s p).2 t := by
  unfold Heap.append
  split
  · exact ⟨read_write_apart ht hst (by omega) (by omega), Ok.write ht, hst⟩
  · refine ⟨read_snoc ht, Ok.snoc ht, .inl ?_⟩
    obtain ⟨_, l, hl, _⟩ := ht
    have := (List.getElem?_eq_some_iff.1 hl).1
    simp only
    omega

/-- One ring: the result reads as it should, other slices read as before. -/
theorem ringH_spec (act : P → P → Act) (room : Nat → Nat) (nil : P) (h : Heap P) (s : Slice) (hs : s.Ok h) :
    (ringH act room nil h s = none ↔ ringV act (h.read s) = none) ∧
    ∀ h' s', ringH act room nil h s = some (h', s') → ringV act (h.read s) = some (h'.read s') ∧ s'.Ok h' ∧
      ∀ t : Slice, t.Ok h → Apart s t → h'.read t = h.read t ∧ t.Ok h' ∧ Apart s' t := by
  have hlen := read_length hs
  unfold ringH ringV
  cases hf : (h.read s).head? with
  | none => simp
  | some f =>
    cases hl : (h.read s).getLast? with
    | none => simp
    | some l =>
      have hpos : 0 < s.len := by
        rw [← hlen]
        rcases hr : h.read s with _ | ⟨a, r⟩
        · rw [hr] at hf; simp at hf
        · simp
      simp only
      cases ha : act f l with
      | append =>
        refine ⟨by simp, ?_⟩
        intro h' s' e
        simp only [Option.some.injEq] at e
        have e1 : h' = (h.append room nil s f).1 := by rw [e]
        have e2 : s' = (h.append room nil s f).2 := by rw [e]
        subst e1 e2
        obtain ⟨a1, a2⟩ := append_read (room := room) (nil := nil) hs f
        exact ⟨by rw [a1], a2, fun t ht hst => append_frame hs ht hst f⟩
      | overwrite =>
        refine ⟨by simp, ?_⟩
        intro h' s' e
        simp only [Option.some.injEq, Prod.mk.injEq] at e
        obtain ⟨rfl, rfl⟩ := e
        refine ⟨?_, Ok.write hs, fun t ht hst => ⟨read_write_apart ht hst (by omega) (by have := hs.1; omega), Ok.write ht, hst⟩⟩
        rw [read_write_self hs (by omega)]
        congr 1
        rcases List.eq_nil_or_concat (h.read s) with e | ⟨r, a, e⟩
        · rw [e] at hf; simp at hf
        · rw [e] at hlen ⊢
          simp only [List.concat_eq_append, List.length_append, List.length_singleton] at hlen ⊢
          rw [List.dropLast_concat, ← hlen, Nat.add_sub_cancel, List.set_append_right _ _ (le_refl _)]
          simp
      | keep =>
        refine ⟨by simp, ?_⟩
        intro h' s' e
        simp only [Option.some.injEq, Prod.mk.injEq] at e
        obtain ⟨rfl, rfl⟩ := e
        exact ⟨rfl, hs, fun t ht hst => ⟨rfl, ht, hst⟩⟩

theorem polygonH_spec (act : P → P → Act) (room : Nat → Nat) (nil : P) : ∀ (ss : List Slice) (h : Heap P), (∀ s ∈ ss, s.Ok h) →
    ss.Pairwise Apart →
    (polygonH act room nil h ss = none ↔ (ss.map h.read).mapM (ringV act) = none) ∧
    ∀ h' ss', polygonH act room nil h ss = some (h', ss') → (ss.map h.read).mapM (ringV act) = some (ss'.map h'.read) ∧
      (∀ s ∈ ss', s.Ok h') ∧
      ∀ t : Slice, t.Ok h → (∀ s ∈ ss, Apart s t) → h'.read t = h.read t ∧ t.Ok h' ∧ ∀ s ∈ ss', Apart s t := by
  intro ss
  induction ss with
  | nil =>
    intro h _ _
    refine ⟨by simp [polygonH], ?_⟩
    intro h' ss' e
    simp only [polygonH, Option.some.injEq, Prod.mk.injEq] at e
    obtain ⟨rfl, rfl⟩ := e
    simp
  | cons s ss ih =>
    intro h hok hp
    rw [List.pairwise_cons] at hp
    obtain ⟨r1, r2⟩ := ringH_spec act room nil h s (hok s (by simp))
    simp only [polygonH, List.map_cons, List.mapM_cons, Option.bind_eq_bind]
    cases hr : ringH act room nil h s with
    | none => simp [r1.1 hr]
    | some x =>
      obtain ⟨h1, s'⟩ := x
      obtain ⟨v1, o1, f1⟩ := r2 h1 s' hr
      have hsame : ss.map h1.read = ss.map h.read :=
        List.map_congr_left fun t ht => (f1 t (hok t (by simp [ht])) (hp.1 t ht)).1
      obtain ⟨i1, i2⟩ := ih h1 (fun t ht => (f1 t (hok t (by simp [ht])) (hp.1 t ht)).2.1) hp.2
      rw [hsame] at i1 i2
      simp only [v1, Option.bind_some]
      cases hq : polygonH act room nil h1 ss with
      | none => simp [i1.1 hq]
      | some y =>
        obtain ⟨h2, ss'⟩ := y
        obtain ⟨w1, o2, f2⟩ := i2 h2 ss' hq
        refine ⟨by simp [w1], ?_⟩
        intro h' ss'' e
        simp only [Option.some.injEq, Prod.mk.injEq] at e
        obtain ⟨rfl, rfl⟩ := e
        obtain ⟨k1, k2, k3⟩ := f2 s' o1 (fun t ht => ((f1 t (hok t (by simp [ht])) (hp.1 t ht)).2.2).symm)
        refine ⟨by simp [w1, k1], ?_, ?_⟩
        · intro t ht
          rcases List.mem_cons.1 ht with rfl | ht
          · exact k2
          · exact o2 t ht
        · intro t ht hap
          obtain ⟨a1, a2, a3⟩ := f1 t ht (hap s (by simp))
          obtain ⟨b1, b2, b3⟩ := f2 t a2 (fun u hu => hap u (by simp [hu]))
          refine ⟨b1.trans a1, b2, ?_⟩
          intro u hu
          rcases List.mem_cons.1 hu with rfl | hu
          · exact a3
          · exact b3 u hu

theorem ringV_lint {F : Type} [Zero F] [Sub F] [LinearOrder F] (p7 : F) : ringV (lintAct p7) = lintRing p7 := by
  funext r
  unfold ringV lintRing lintAct
  cases r.head? with
  | none => rfl
  | some f =>
    cases r.getLast? with
    | none => rfl
    | some l =>
      simp only
      by_cases h : deltaFirstLast p7 f l = true
      · rw [if_pos h, if_pos h]
      · rw [if_neg h, if_neg h]

theorem ringV_trim [DecidableEq P] : ringV (trimAct (P := P)) = Mvt.trimRing := by
  funext r
  unfold ringV trimAct
  cases r with
  | nil => rfl
  | cons p ps =>
    simp only [List.head?_cons, Mvt.trimRing]
    cases hl : (p :: ps).getLast? with
    | none => simp at hl
    | some l =>
      simp only [Option.some.injEq]
      by_cases h : p = l
      · subst h; rw [if_pos rfl, if_pos rfl]
      · rw [if_neg h, if_neg (Ne.symm h)]

theorem trimPolygon_mapM [DecidableEq P] (rs : List (List P)) : Mvt.trimPolygon rs = rs.mapM Mvt.trimRing := by
  induction rs with
  | nil => rfl
  | cons r rs ih =>
    simp only [Mvt.trimPolygon, List.mapM_cons, Option.bind_eq_bind, ih]
    cases Mvt.trimRing r <;> [rfl; (cases rs.mapM Mvt.trimRing <;> rfl)]

/-- **C87.** `LintPolygon`, on which clipping relies, in memory: if no two rings of the polygon use the same cells (up to capacity), the
caller's polygon afterwards has the rings of the value model — each ring closed — and nothing else in memory has changed; it panics exactly
if a ring is empty. -/
theorem C87_lint {F : Type} [Zero F] [Sub F] [LinearOrder F] (p7 : F) (room : Nat → Nat) (nil : F × F) (h : Heap (F × F)) (ss : List Slice)
    (hok : ∀ s ∈ ss, s.Ok h) (hap : ss.Pairwise Apart) :
    (polygonH (lintAct p7) room nil h ss = none ↔ [] ∈ ss.map h.read) ∧
    ∀ h' ss', polygonH (lintAct p7) room nil h ss = some (h', ss') → lintPolygon p7 (ss.map h.read) = some (ss'.map h'.read) ∧
      ∀ t : Slice, t.Ok h → (∀ s ∈ ss, Apart s t) → h'.read t = h.read t := by
  obtain ⟨h1, h2⟩ := polygonH_spec (lintAct p7) room nil ss h hok hap
  rw [ringV_lint] at h1 h2
  refine ⟨?_, fun h' ss' e => ⟨(h2 h' ss' e).1, fun t ht ha => ((h2 h' ss' e).2.2 t ht ha).1⟩⟩
  rw [h1]
  generalize ss.map h.read = rs
  induction rs with
  | nil => simp
  | cons r rs ih =>
    rw [List.mapM_cons, Option.bind_eq_bind]
    cases r with
    | nil => simp [lintRing]
    | cons a r =>
      have : ∃ x, lintRing p7 (a :: r) = some x := by
        unfold lintRing
        cases hl : (a :: r).getLast? with
        | none => simp at hl
        | some l => exact ⟨_, rfl⟩
      obtain ⟨x, hx⟩ := this
      rw [hx, Option.bind_some]
      cases hm : rs.mapM (lintRing p7) with
      | none => simpa using ih.1 hm
      | some y =>
        constructor
        · intro h; simp at h
        · intro h
          rcases List.mem_cons.1 h with h | h
          · simp at h
          · rw [ih.2 h] at hm; simp at hm

/-- **C87.** The same for `TrimPolygon` and `TrimPolygonFloat`, on which writing a polygon relies. -/
theorem C87_trim [DecidableEq P] (room : Nat → Nat) (nil : P) (h : Heap P) (ss : List Slice) (hok : ∀ s ∈ ss, s.Ok h)
    (hap : ss.Pairwise Apart) :
    (polygonH trimAct room nil h ss = none ↔ Mvt.trimPolygon (ss.map h.read) = none) ∧
    ∀ h' ss', polygonH trimAct room nil h ss = some (h', ss') → Mvt.trimPolygon (ss.map h.read) = some (ss'.map h'.read) ∧
      ∀ t : Slice, t.Ok h → (∀ s ∈ ss, Apart s t) → h'.read t = h.read t := by
  obtain ⟨h1, h2⟩ := polygonH_spec trimAct room nil ss h hok hap
  rw [ringV_trim] at h1 h2
  rw [trimPolygon_mapM]
  exact ⟨h1, fun h' ss' e => ⟨(h2 h' ss' e).1, fun t ht ha => ((h2 h' ss' e).2.2 t ht ha).1⟩⟩

theorem multiPolygonH_spec (act : P → P → Act) (room : Nat → Nat) (nil : P) : ∀ (pss : List (List Slice)) (h : Heap P),
    (∀ s ∈ pss.flatten, s.Ok h) → pss.flatten.Pairwise Apart →
    (multiPolygonH act room nil h pss = none ↔ (pss.map (List.map h.read)).mapM (fun p => p.mapM (ringV act)) = none) ∧
    ∀ h' pss', multiPolygonH act room nil h pss = some (h', pss') →
      (pss.map (List.map h.read)).mapM (fun p => p.mapM (ringV act)) = some (pss'.map (List.map h'.read)) ∧
      ∀ t : Slice, t.Ok h → (∀ s ∈ pss.flatten, Apart s t) → h'.read t = h.read t ∧ t.Ok h' := by
  intro pss
  induction pss with
  | nil =>
    intro h _ _
    refine ⟨by simp [multiPolygonH], ?_⟩
    intro h' ss' e
    simp only [multiPolygonH, Option.some.injEq, Prod.mk.injEq] at e
    obtain ⟨rfl, rfl⟩ := e
    simp
  | cons p pss ih =>
    intro h hok hp
    rw [List.flatten_cons] at hok hp
    rw [List.pairwise_append] at hp
    obtain ⟨hp1, hp2, hp3⟩ := hp
    obtain ⟨r1, r2⟩ := polygonH_spec act room nil p h (fun s hs => hok s (List.mem_append_left _ hs)) hp1
    simp only [multiPolygonH, List.map_cons, List.mapM_cons, Option.bind_eq_bind]
    cases hr : polygonH act room nil h p with
    | none => simp [r1.1 hr]
    | some x =>
      obtain ⟨h1, p'⟩ := x
      obtain ⟨v1, o1, f1⟩ := r2 h1 p' hr
      have hf : ∀ t ∈ pss.flatten, h1.read t = h.read t ∧ t.Ok h1 ∧ ∀ s ∈ p', Apart s t := fun t ht =>
        f1 t (hok t (List.mem_append_right _ ht)) (fun s hs => hp3 s hs t ht)
      have hsame : pss.map (List.map h1.read) = pss.map (List.map h.read) :=
        List.map_congr_left fun q hq => List.map_congr_left fun t ht => (hf t (List.mem_flatten.2 ⟨q, hq, ht⟩)).1
      obtain ⟨i1, i2⟩ := ih h1 (fun t ht => (hf t ht).2.1) hp2
      rw [hsame] at i1 i2
      simp only [v1, Option.bind_some]
      cases hq : multiPolygonH act room nil h1 pss with
      | none => simp [i1.1 hq]
      | some y =>
        obtain ⟨h2, pss'⟩ := y
        obtain ⟨w1, f2⟩ := i2 h2 pss' hq
        refine ⟨by simp [w1], ?_⟩
        intro h' ss'' e
        simp only [Option.some.injEq, Prod.mk.injEq] at e
        obtain ⟨rfl, rfl⟩ := e
        have hpr : p'.map h2.read = p'.map h1.read :=
          List.map_congr_left fun s hs => (f2 s (o1 s hs) (fun t ht => ((hf t ht).2.2 s hs).symm)).1
        refine ⟨by simp [w1, hpr], ?_⟩
        intro t ht hap
        rw [List.flatten_cons] at hap
        obtain ⟨a1, a2, _⟩ := f1 t ht (fun s hs => hap s (List.mem_append_left _ hs))
        obtain ⟨b1, b2⟩ := f2 t a2 (fun u hu => hap u (List.mem_append_right _ hu))
        exact ⟨b1.trans a1, b2⟩

/-- **C87.** `LintMultiPolygon`: the same for a list of polygons. -/
theorem C87_lint_multi {F : Type} [Zero F] [Sub F] [LinearOrder F] (p7 : F) (room : Nat → Nat) (nil : F × F) (h : Heap (F × F))
    (pss : List (List Slice)) (hok : ∀ s ∈ pss.flatten, s.Ok h) (hap : pss.flatten.Pairwise Apart) (h' : Heap (F × F))
    (pss' : List (List Slice)) (e : multiPolygonH (lintAct p7) room nil h pss = some (h', pss')) :
    (pss.map (List.map h.read)).mapM (lintPolygon p7) = some (pss'.map (List.map h'.read)) ∧
      ∀ t : Slice, t.Ok h → (∀ s ∈ pss.flatten, Apart s t) → h'.read t = h.read t := by
  obtain ⟨_, h2⟩ := multiPolygonH_spec (lintAct p7) room nil pss h hok hap
  rw [ringV_lint] at h2
  exact ⟨(h2 h' pss' e).1, fun t ht ha => ((h2 h' pss' e).2 t ht ha).1⟩

/-- **C87.** `TrimMultiPolygon` and `TrimMultiPolygonFloat`. -/
theorem C87_trim_multi [DecidableEq P] (room : Nat → Nat) (nil : P) (h : Heap P) (pss : List (List Slice))
    (hok : ∀ s ∈ pss.flatten, s.Ok h) (hap : pss.flatten.Pairwise Apart) (h' : Heap P) (pss' : List (List Slice))
    (e : multiPolygonH trimAct room nil h pss = some (h', pss')) :
    MvtDef.trimMultiPolygon (pss.map (List.map h.read)) = some (pss'.map (List.map h'.read)) ∧
      ∀ t : Slice, t.Ok h → (∀ s ∈ pss.flatten, Apart s t) → h'.read t = h.read t := by
  obtain ⟨_, h2⟩ := multiPolygonH_spec trimAct room nil pss h hok hap
  rw [ringV_trim] at h2
  unfold MvtDef.trimMultiPolygon
  rw [show Mvt.trimPolygon (P := P) = fun p => p.mapM Mvt.trimRing from funext trimPolygon_mapM]
  exact ⟨(h2 h' pss' e).1, fun t ht ha => ((h2 h' pss' e).2 t ht ha).1⟩

/-! ### what the caller notices -/

section caller
variable {F : Type} [Zero F] [Add F] [Sub F] [Mul F] [Div F] [LinearOrder F]

theorem lintRing_closed {p7 : F} {r r' : List (F × F)} (h : lintRing p7 r = some r') :
    ∃ f, r.head? = some f ∧ r'.head? = some f ∧ r'.getLast? = some f := by
  unfold lintRing at h
  cases r with
  | nil => simp at h
  | cons a r =>
    cases hl : (a :: r).getLast? with
    | none => simp at hl
    | some l =>
      simp only [List.head?_cons, hl, Option.some.injEq] at h
      refine ⟨a, rfl, ?_, ?_⟩
      · rw [← h]
        split
        · rfl
        · cases r with
          | nil => rfl
          | cons b r => rfl
      · rw [← h]
        split <;> exact List.getLast?_concat

theorem lintRing_of_closed {p7 : F} (hp : ∀ a : F, goAbs (a - a) ≤ p7) {r : List (F × F)} {f : F × F} (h1 : r.head? = some f)
    (h2 : r.getLast? = some f) : lintRing p7 r = some r := by
  unfold lintRing
  rw [h1, h2]
  have : deltaFirstLast p7 f f = false := by
    unfold deltaFirstLast
    simp only [Bool.or_eq_false_iff, decide_eq_false_iff_not, gt_iff_lt, not_lt]
    exact ⟨hp _, hp _⟩
  simp only [this, Bool.false_eq_true, if_false, Option.some.injEq]
  obtain ⟨ys, rfl⟩ := List.getLast?_eq_some_iff.1 h2
  simp

/-- Closing twice is closing once. -/
theorem lintPolygon_again {p7 : F} (hp : ∀ a : F, goAbs (a - a) ≤ p7) : ∀ {rs rs' : List (List (F × F))}, lintPolygon p7 rs = some rs' →
    lintPolygon p7 rs' = some rs' := by
  intro rs
  unfold lintPolygon
  induction rs with
  | nil => intro rs' h; simp at h; subst h; simp
  | cons r rs ih =>
    intro rs' h
    rw [List.mapM_cons, Option.bind_eq_bind, Option.bind_eq_some_iff] at h
    obtain ⟨r1, h1, h⟩ := h
    rw [Option.bind_eq_bind, Option.bind_eq_some_iff] at h
    obtain ⟨rs1, h2, h⟩ := h
    simp only [Option.pure_def, Option.some.injEq] at h
    subst h
    obtain ⟨f, _, b, c⟩ := lintRing_closed h1
    rw [List.mapM_cons, lintRing_of_closed hp b c, ih h2]
    rfl

/-- **C87.** Clipping the caller's polygon once more, after the first clipping has closed its rings in place, gives the result it would have
given with the original polygon: `ClipTile` and the halves of `ClipFeature` do not depend on the order of calls. -/
theorem C87_again {p7 : F} (hp : ∀ a : F, goAbs (a - a) ≤ p7) (rs rs' : List (List (F × F))) (h : lintPolygon p7 rs = some rs') (k1 k2 : F)
    (ax : Axis) : clip p7 (.polygon rs') k1 k2 ax = clip p7 (.polygon rs) k1 k2 ax := by
  simp only [clip, h, lintPolygon_again hp h]

/-- **C87.** The same for a multi-polygon. -/
theorem C87_again_multi {p7 : F} (hp : ∀ a : F, goAbs (a - a) ≤ p7) (ps ps' : List (List (List (F × F))))
    (h : ps.mapM (lintPolygon p7) = some ps') (k1 k2 : F) (ax : Axis) :
    clip p7 (.multiPolygon ps') k1 k2 ax = clip p7 (.multiPolygon ps) k1 k2 ax := by
  have h2 : ps'.mapM (lintPolygon p7) = some ps' := by
    induction ps generalizing ps' with
    | nil => simp at h; subst h; simp
    | cons r rs ih =>
      rw [List.mapM_cons, Option.bind_eq_bind, Option.bind_eq_some_iff] at h
      obtain ⟨r1, h1, h⟩ := h
      rw [Option.bind_eq_bind, Option.bind_eq_some_iff] at h
      obtain ⟨rs1, h2, h⟩ := h
      simp only [Option.pure_def, Option.some.injEq] at h
      subst h
      rw [List.mapM_cons, lintPolygon_again hp h1, ih _ h2]
      rfl
  simp only [clip, h, h2]

/-- **C87.** The caller's polygon is unchanged by clipping exactly if each of its rings ends with its first point. -/
theorem C87_unchanged_iff {p7 : F} (hp : ∀ a : F, goAbs (a - a) ≤ p7) (rs : List (List (F × F))) :
    lintPolygon p7 rs = some rs ↔ ∀ r ∈ rs, r ≠ [] ∧ r.head? = r.getLast? := by
  unfold lintPolygon
  induction rs with
  | nil => simp
  | cons r rs ih =>
    rw [List.mapM_cons, Option.bind_eq_bind]
    constructor
    · intro h
      rw [Option.bind_eq_some_iff] at h
      obtain ⟨r1, h1, h⟩ := h
      rw [Option.bind_eq_bind, Option.bind_eq_some_iff] at h
      obtain ⟨rs1, h2, h⟩ := h
      simp only [Option.pure_def, Option.some.injEq, List.cons.injEq] at h
      obtain ⟨rfl, rfl⟩ := h
      intro q hq
      rcases List.mem_cons.1 hq with rfl | hq
      · obtain ⟨f, a, b, c⟩ := lintRing_closed h1
        exact ⟨by rintro rfl; simp at a, by rw [a, c]⟩
      · exact ih.1 h2 q hq
    · intro h
      obtain ⟨h1, h2⟩ := h r (by simp)
      obtain ⟨f, hf⟩ : ∃ f, r.head? = some f := by
        cases r with
        | nil => exact absurd rfl h1
        | cons a r => exact ⟨a, rfl⟩
      rw [lintRing_of_closed hp hf (by rw [← h2, hf]), ih.2 (fun q hq => h q (by simp [hq]))]
      rfl

end caller

/-- The condition on `Power7` holds with exact arithmetic. -/
theorem abs_sub_self_field {F : Type} [Field F] [LinearOrder F] {p7 : F} (hp : 0 ≤ p7) (a : F) : goAbs (a - a) ≤ p7 := by
  unfold goAbs
  rw [sub_self]
  simpa using hp

/-- The condition on `Power7` holds with float64. -/
theorem abs_sub_self_float {p7 : Dbl} (hp : 0 ≤ p7) (a : Dbl) : goAbs (a - a) ≤ p7 := by
  have : a - a = 0 := by
    apply Dbl.val_injective
    show F64.rnd (a.val - a.val) = 0
    rw [sub_self, F64.rnd_zero]
  unfold goAbs
  rw [this]
  simpa using hp

/-- **C87 (what a user would not expect).** If an open ring has spare capacity and the next ring starts right behind it in the same array —
rings cut out of one flat list of points — closing the first ring overwrites the first point of the next one. -/
theorem C87_next_ring_damaged (act : P → P → Act) (room : Nat → Nat) (nil : P) (h : Heap P) (s t : Slice) (hs : s.Ok h) (ht : t.Ok h)
    (harr : t.arr = s.arr) (hoff : t.off = s.off + s.len) (hcap : s.len < s.cap) (f l : P) (hf : (h.read s).head? = some f)
    (hl : (h.read s).getLast? = some l) (hact : act f l = .append) (hlen : 0 < t.len) :
    ∃ h' s', ringH act room nil h s = some (h', s') ∧ h'.read s' = h.read s ++ [f] ∧ h'.read t = f :: (h.read t).tail := by
  have e : ringH act room nil h s = some (h.append room nil s f) := by
    unfold ringH
    simp only [hf, hl, hact]
  refine ⟨(h.append room nil s f).1, (h.append room nil s f).2, e, (append_read hs f).1, ?_⟩
  unfold Heap.append
  rw [if_pos hcap]
  simp only
  rw [show s.off + s.len = t.off + 0 by omega, ← harr, read_write_self ht hlen]
  have := read_length ht
  rcases hr : h.read t with _ | ⟨a, r⟩
  · rw [hr] at this
    rw [← this] at hlen
    simp at hlen
  · rfl

/-- A square given by four points in memory with a hole behind it in the same array: closing the square puts its first corner into the
hole, and clipping works with the damaged hole. -/
example : (polygonH (lintAct (1 / 10000000 : ℚ)) (fun _ => 0) (0, 0)
      [[(0, 0), (9, 0), (9, 9), (0, 9), (3, 3), (3, 6), (6, 6), (3, 3)]] [⟨0, 0, 4, 8⟩, ⟨0, 4, 4, 4⟩]).map
      (fun x => x.2.map x.1.read) =
    some [[(0, 0), (9, 0), (9, 9), (0, 9), (0, 0)], [(0, 0), (3, 6), (6, 6), (3, 3), (0, 0)]] := by decide +kernel

/-- The same rings in arrays of their own: both closed, nothing else changed. -/
example : (polygonH (lintAct (1 / 10000000 : ℚ)) (fun _ => 0) (0, 0)
      [[(0, 0), (9, 0), (9, 9), (0, 9)], [(3, 3), (3, 6), (6, 6), (3, 3)]] [⟨0, 0, 4, 4⟩, ⟨1, 0, 4, 4⟩]).map
      (fun x => x.2.map x.1.read) =
    some [[(0, 0), (9, 0), (9, 9), (0, 9), (0, 0)], [(3, 3), (3, 6), (6, 6), (3, 3)]] := by decide +kernel

end Verif.Alias
