import Verif.Model.TileCoverAlias
import Verif.Props.MvtAlias

/-!
# C92: covering a polygon leaves the caller's polygon alone
-/
namespace Verif.CoverH
open Verif.Alias Verif.Tid

variable {F B : Type}

/-! ## The cover of lists of points, for any arithmetic -/

section Values
variable [DecidableEq F] (K : Kit F B)

/-- `Pip` on lists. -/
def pipCountV (p : F × F) : List (List (F × F)) → Option Nat
  | [] => some 0
  | c :: cs =>
    match ringV pipAct c with
    | none => none
    | some c' => (pipCountV p cs).map (countRing K p c' + ·)

/-- `Pip` on lists. -/
def pipV (rings : List (List (F × F))) (p : F × F) : Option Bool := (pipCountV K p rings).map fun n => n % 2 != 0

/-- The disjunction over the corners, on lists. -/
def anyPipV (rings : List (List (F × F))) : List (F × F) → Option Bool
  | [] => some false
  | p :: ps =>
    match pipV K rings p with
    | none => none
    | some true => some true
    | some false => anyPipV rings ps

/-- `TilePolygon` on lists. -/
def tilePolygonV (rings : List (List (F × F))) (pb : B) (t : TileID) : Option Bool :=
  if K.inside pb t = true then some true
  else
    match anyPipV K rings (K.corners t) with
    | none => none
    | some true => some true
    | some false => some (rings.any fun c => c.any fun pt => K.has pt t)

/-- The filter of `GetTilesPolygon` on lists. -/
def keepV (rings : List (List (F × F))) (pb : B) : List TileID → Option (List TileID)
  | [] => some []
  | t :: ts =>
    match tilePolygonV K rings pb t with
    | none => none
    | some b => (keepV rings pb ts).map fun r => if b then t :: r else r

/-- `GetTilesPolygon` on lists. -/
def getTilesPolygonV (rings : List (List (F × F))) (zoom : Nat) : Option (List TileID) :=
  match rings with
  | [] => none
  | outer :: _ => keepV K rings (K.box outer) (K.cands (K.box outer) zoom)

end Values

/-- A property `R` of the memory that the closing of the rings `ss` preserves and that fixes what the rings read as. -/
structure Stable [DecidableEq F] (room : Nat → Nat) (nil : F × F) (ss : List Slice) (v : Slice → List (F × F))
    (R : Heap (F × F) → Prop) : Prop where
  ok : ∀ h s, R h → s ∈ ss → s.Ok h
  read : ∀ h s, R h → s ∈ ss → h.read s = v s
  step : ∀ h s h' c, R h → s ∈ ss → ringH pipAct room nil h s = some (h', c) → R h'

section Generic
variable [DecidableEq F] {K : Kit F B} {room : Nat → Nat} {nil : F × F} {all : List Slice} {v : Slice → List (F × F)}
  {R : Heap (F × F) → Prop}

theorem pipCountH_stable (st : Stable room nil all v R) (p : F × F) : ∀ (ss : List Slice) (h : Heap (F × F)), R h → (∀ s ∈ ss, s ∈ all) →
    (pipCountH K room nil p h ss).map Prod.snd = pipCountV K p (ss.map v) ∧ ∀ x, pipCountH K room nil p h ss = some x → R x.1 := by
  intro ss
  induction ss with
  | nil =>
    intro h hR _
    refine ⟨rfl, ?_⟩
    intro x e
    simp only [pipCountH, Option.some.injEq] at e
    rw [← e]
    exact hR
  | cons s ss ih =>
    intro h hR hss
    have hs := hss s (by simp)
    obtain ⟨r1, r2⟩ := ringH_spec pipAct room nil h s (st.ok h s hR hs)
    rw [st.read h s hR hs] at r1 r2
    simp only [pipCountH, List.map_cons, pipCountV]
    cases hr : ringH pipAct room nil h s with
    | none => simp [r1.1 hr]
    | some y =>
      obtain ⟨h1, c⟩ := y
      obtain ⟨v1, -, -⟩ := r2 h1 c hr
      obtain ⟨i1, i2⟩ := ih h1 (st.step h s h1 c hR hs hr) (fun t ht => hss t (by simp [ht]))
      rw [v1]
      dsimp only
      refine ⟨?_, ?_⟩
      · rw [← i1]
        cases pipCountH K room nil p h1 ss <;> rfl
      · intro x e
        simp only [Option.map_eq_some_iff] at e
        obtain ⟨y, hy, rfl⟩ := e
        exact i2 y hy

theorem pipH_stable (st : Stable room nil all v R) (p : F × F) (h : Heap (F × F)) (hR : R h) :
    (pipH K room nil h all p).map Prod.snd = pipV K (all.map v) p ∧ ∀ x, pipH K room nil h all p = some x → R x.1 := by
  obtain ⟨i1, i2⟩ := pipCountH_stable (K := K) st p all h hR (fun s hs => hs)
  unfold pipH pipV
  refine ⟨?_, ?_⟩
  · rw [← i1]
    cases pipCountH K room nil p h all <;> rfl
  · intro x e
    simp only [Option.map_eq_some_iff] at e
    obtain ⟨y, hy, rfl⟩ := e
    exact i2 y hy

theorem anyPipH_stable (st : Stable room nil all v R) : ∀ (ps : List (F × F)) (h : Heap (F × F)), R h →
    (anyPipH K room nil all h ps).map Prod.snd = anyPipV K (all.map v) ps ∧ ∀ x, anyPipH K room nil all h ps = some x → R x.1 := by
  intro ps
  induction ps with
  | nil =>
    intro h hR
    refine ⟨rfl, ?_⟩
    intro x e
    simp only [anyPipH, Option.some.injEq] at e
    rw [← e]
    exact hR
  | cons p ps ih =>
    intro h hR
    obtain ⟨i1, i2⟩ := pipH_stable (K := K) st p h hR
    simp only [anyPipH, anyPipV]
    rw [← i1]
    cases hp : pipH K room nil h all p with
    | none => simp
    | some y =>
      obtain ⟨h1, b⟩ := y
      have hR1 := i2 _ hp
      cases b with
      | true =>
        refine ⟨rfl, ?_⟩
        intro x e
        simp only [Option.some.injEq] at e
        rw [← e]
        exact hR1
      | false => exact ih h1 hR1

theorem tilePolygonH_stable (st : Stable room nil all v R) (pb : B) (t : TileID) (h : Heap (F × F)) (hR : R h) :
    (tilePolygonH K room nil h all pb t).map Prod.snd = tilePolygonV K (all.map v) pb t ∧
      ∀ x, tilePolygonH K room nil h all pb t = some x → R x.1 := by
  unfold tilePolygonH tilePolygonV
  by_cases hi : K.inside pb t = true
  · rw [if_pos hi, if_pos hi]
    refine ⟨rfl, ?_⟩
    intro x e
    simp only [Option.some.injEq] at e
    rw [← e]
    exact hR
  · rw [if_neg hi, if_neg hi]
    obtain ⟨i1, i2⟩ := anyPipH_stable (K := K) st (K.corners t) h hR
    rw [← i1]
    cases hp : anyPipH K room nil all h (K.corners t) with
    | none => simp
    | some y =>
      obtain ⟨h1, b⟩ := y
      have hR1 := i2 _ hp
      cases b with
      | true =>
        refine ⟨rfl, ?_⟩
        intro x e
        simp only [Option.some.injEq] at e
        rw [← e]
        exact hR1
      | false =>
        have hm : all.map h1.read = all.map v := List.map_congr_left fun s hs => st.read h1 s hR1 hs
        simp only [Option.map_some]
        rw [hm]
        refine ⟨rfl, ?_⟩
        intro x e
        simp only [Option.some.injEq] at e
        rw [← e]
        exact hR1

theorem keepH_stable (st : Stable room nil all v R) (pb : B) : ∀ (ts : List TileID) (h : Heap (F × F)), R h →
    (keepH K room nil all pb h ts).map Prod.snd = keepV K (all.map v) pb ts ∧ ∀ x, keepH K room nil all pb h ts = some x → R x.1 := by
  intro ts
  induction ts with
  | nil =>
    intro h hR
    refine ⟨rfl, ?_⟩
    intro x e
    simp only [keepH, Option.some.injEq] at e
    rw [← e]
    exact hR
  | cons t ts ih =>
    intro h hR
    obtain ⟨i1, i2⟩ := tilePolygonH_stable (K := K) st pb t h hR
    simp only [keepH, keepV]
    rw [← i1]
    cases hp : tilePolygonH K room nil h all pb t with
    | none => simp
    | some y =>
      obtain ⟨h1, b⟩ := y
      obtain ⟨j1, j2⟩ := ih h1 (i2 _ hp)
      dsimp only [Option.map_some]
      refine ⟨?_, ?_⟩
      · rw [← j1]
        cases keepH K room nil all pb h1 ts <;> rfl
      · intro x e
        simp only [Option.map_eq_some_iff] at e
        obtain ⟨y, hy, rfl⟩ := e
        exact j2 y hy

theorem getTilesPolygonH_stable (st : Stable room nil all v R) (zoom : Nat) (h : Heap (F × F)) (hR : R h) :
    (getTilesPolygonH K room nil h all zoom).map Prod.snd = getTilesPolygonV K (all.map v) zoom ∧
      ∀ x, getTilesPolygonH K room nil h all zoom = some x → R x.1 := by
  unfold getTilesPolygonH getTilesPolygonV
  cases all with
  | nil => simp
  | cons s ss =>
    simp only [List.map_cons]
    rw [st.read h s hR (by simp)]
    exact keepH_stable (K := K) st _ _ h hR

theorem Stable.sub (st : Stable room nil all v R) {ss : List Slice} (h : ∀ s ∈ ss, s ∈ all) : Stable room nil ss v R :=
  ⟨fun m s hR hs => st.ok m s hR (h s hs), fun m s hR hs => st.read m s hR (h s hs), fun m s m' c hR hs => st.step m s m' c hR (h s hs)⟩

theorem mergeH_stable (st : Stable room nil all v R) (zoom : Nat) : ∀ (pss : List (List Slice)) (h : Heap (F × F)) (pos : Nat)
    (total : List TileID), R h → (∀ ss ∈ pss, ∀ s ∈ ss, s ∈ all) →
    (mergeH K room nil zoom h pos total pss).map Prod.snd =
        Cover.mergeParts (fun _ p => getTilesPolygonV K p zoom) pos total (pss.map (List.map v)) ∧
      ∀ x, mergeH K room nil zoom h pos total pss = some x → R x.1 := by
  intro pss
  induction pss with
  | nil =>
    intro h pos total hR _
    refine ⟨rfl, ?_⟩
    intro x e
    simp only [mergeH, Option.some.injEq] at e
    rw [← e]
    exact hR
  | cons ss pss ih =>
    intro h pos total hR hss
    obtain ⟨i1, i2⟩ := getTilesPolygonH_stable (K := K) (st.sub (hss ss (by simp))) zoom h hR
    simp only [mergeH, List.map_cons, Cover.mergeParts]
    rw [← i1]
    cases hp : getTilesPolygonH K room nil h ss zoom with
    | none => simp
    | some y =>
      obtain ⟨h1, tmp⟩ := y
      have hR1 := i2 _ hp
      dsimp only [Option.map_some]
      by_cases h0 : pos = 0
      · rw [if_pos h0, if_pos h0]
        exact ih h1 _ _ hR1 (fun ss hs => hss ss (by simp [hs]))
      · rw [if_neg h0, if_neg h0]
        exact ih h1 _ _ hR1 (fun ss hs => hss ss (by simp [hs]))

end Generic

/-! ## The list functions are those of C11-C13 and C89-C90 -/

theorem ringV_pipAct [DecidableEq F] (a : F × F) (rest : List (F × F)) :
    ringV pipAct (a :: rest) = some (if a.1 ≠ ((a :: rest).getLast (by simp)).1 then (a :: rest) ++ [a] else a :: rest) := by
  unfold ringV pipAct
  rw [List.head?_cons, List.getLast?_eq_getLast_of_ne_nil (by simp)]
  dsimp only
  by_cases h : a.1 ≠ ((a :: rest).getLast (by simp)).1
  · rw [if_pos h, if_pos h]
  · rw [if_neg h, if_neg h]

theorem countRing_closed [DecidableEq F] (K : Kit F B) (p a : F × F) (rest : List (F × F)) (c : Prop) [Decidable c] :
    countRing K p (if c then (a :: rest) ++ [a] else a :: rest) = countFrom K p a (if c then (a :: rest) ++ [a] else a :: rest) := by
  split <;> rfl

theorem countFrom_exact (p first : Cover.Pt) : ∀ l, countFrom exactKit p first l = Cover.countFrom p first l
  | [] => rfl
  | [a] => rfl
  | a :: b :: rest => by
    rw [countFrom, Cover.countFrom, countFrom_exact p first (b :: rest)]
    rfl

theorem countFrom_float (M : Tid.Float.MathLib) (p first : CoverF.Pt) : ∀ l, countFrom (floatKit M) p first l = CoverF.countFrom p first l
  | [] => rfl
  | [a] => rfl
  | a :: b :: rest => by
    rw [countFrom, CoverF.countFrom, countFrom_float M p first (b :: rest)]
    rfl

theorem pipCountV_exact (p : Cover.Pt) (rings : List (List Cover.Pt)) : pipCountV exactKit p rings = Cover.pipCount p rings := by
  induction rings with
  | nil => rfl
  | cons c cs ih =>
    rw [pipCountV, Cover.pipCount, ih]
    cases c with
    | nil => rfl
    | cons a rest =>
      rw [ringV_pipAct]
      dsimp only
      rw [countRing_closed, countFrom_exact]
      unfold Cover.ringCount
      dsimp only

theorem pipCountV_float (M : Tid.Float.MathLib) (p : CoverF.Pt) (rings : List (List CoverF.Pt)) :
    pipCountV (floatKit M) p rings = CoverF.pipCount p rings := by
  induction rings with
  | nil => rfl
  | cons c cs ih =>
    rw [pipCountV, CoverF.pipCount, ih]
    cases c with
    | nil => rfl
    | cons a rest =>
      rw [ringV_pipAct]
      dsimp only
      rw [countRing_closed, countFrom_float]
      unfold CoverF.ringCount
      dsimp only

theorem pipV_exact (rings : List (List Cover.Pt)) (p : Cover.Pt) : pipV exactKit rings p = Cover.pip rings p := by
  unfold pipV Cover.pip
  rw [pipCountV_exact]

theorem pipV_float (M : Tid.Float.MathLib) (rings : List (List CoverF.Pt)) (p : CoverF.Pt) :
    pipV (floatKit M) rings p = CoverF.pip rings p := by
  unfold pipV CoverF.pip
  rw [pipCountV_float]

theorem tilePolygonV_exact (rings : List (List Cover.Pt)) (pb : Cover.Box) (t : TileID) :
    tilePolygonV exactKit rings pb t = Cover.tilePolygon rings pb t := by
  unfold tilePolygonV Cover.tilePolygon
  have e1 : exactKit.inside pb t = true ↔ (pb.N < (bounds t).N ∧ pb.S > (bounds t).S ∧ pb.E < (bounds t).E ∧ pb.W > (bounds t).W) := by
    unfold exactKit
    simp only [decide_eq_true_eq]
  dsimp only
  by_cases h : exactKit.inside pb t = true
  · rw [if_pos h, if_pos (e1.1 h)]
  · rw [if_neg h, if_neg (fun c => h (e1.2 c))]
    have e2 : exactKit.corners t = [((bounds t).W, (bounds t).N), ((bounds t).W, (bounds t).S), ((bounds t).E, (bounds t).N),
      ((bounds t).E, (bounds t).S)] := rfl
    rw [e2]
    simp only [anyPipV, pipV_exact]
    have e3 : (rings.any fun c => c.any fun pt => exactKit.has pt t) = Cover.runPolygon rings t := by
      unfold Cover.runPolygon exactKit
      congr!
    rw [e3]
    rcases Cover.pip rings ((bounds t).W, (bounds t).N) with _ | (_ | _) <;> try rfl
    rcases Cover.pip rings ((bounds t).W, (bounds t).S) with _ | (_ | _) <;> try rfl
    rcases Cover.pip rings ((bounds t).E, (bounds t).N) with _ | (_ | _) <;> try rfl
    rcases Cover.pip rings ((bounds t).E, (bounds t).S) with _ | (_ | _) <;> rfl

theorem tilePolygonV_float (M : Tid.Float.MathLib) (rings : List (List CoverF.Pt)) (pb : CoverF.Box) (t : TileID) :
    tilePolygonV (floatKit M) rings pb t = CoverF.tilePolygon M rings pb t := by
  unfold tilePolygonV CoverF.tilePolygon
  generalize hb : Tid.Float.bounds M t = b
  have e1 : (floatKit M).inside pb t = true ↔ (pb.N < b.N ∧ pb.S > b.S ∧ pb.E < b.E ∧ pb.W > b.W) := by
    unfold floatKit
    simp only [decide_eq_true_eq, hb]
  dsimp only
  by_cases h : (floatKit M).inside pb t = true
  · rw [if_pos h, if_pos (e1.1 h)]
  · rw [if_neg h, if_neg (fun c => h (e1.2 c))]
    have e2 : (floatKit M).corners t = [(b.W, b.N), (b.W, b.S), (b.E, b.N), (b.E, b.S)] := by rw [← hb]; rfl
    rw [e2]
    simp only [anyPipV, pipV_float]
    have e3 : (rings.any fun c => c.any fun pt => (floatKit M).has pt t) = CoverF.runPolygon M rings t := rfl
    rw [e3]
    rcases CoverF.pip rings (b.W, b.N) with _ | (_ | _) <;> try rfl
    rcases CoverF.pip rings (b.W, b.S) with _ | (_ | _) <;> try rfl
    rcases CoverF.pip rings (b.E, b.N) with _ | (_ | _) <;> try rfl
    rcases CoverF.pip rings (b.E, b.S) with _ | (_ | _) <;> rfl

theorem keepV_exact (rings : List (List Cover.Pt)) (pb : Cover.Box) (ts : List TileID) :
    keepV exactKit rings pb ts = Cover.keep rings pb ts := by
  induction ts with
  | nil => rfl
  | cons t ts ih =>
    rw [keepV, Cover.keep, ih, tilePolygonV_exact]
    cases Cover.tilePolygon rings pb t <;> rfl

theorem keepV_float (M : Tid.Float.MathLib) (rings : List (List CoverF.Pt)) (pb : CoverF.Box) (ts : List TileID) :
    keepV (floatKit M) rings pb ts = CoverF.keep M rings pb ts := by
  induction ts with
  | nil => rfl
  | cons t ts ih =>
    rw [keepV, CoverF.keep, ih, tilePolygonV_float]
    cases CoverF.tilePolygon M rings pb t <;> rfl

theorem getTilesPolygonV_exact (rings : List (List Cover.Pt)) (zoom : Nat) :
    getTilesPolygonV exactKit rings zoom = Cover.getTilesPolygon rings zoom := by
  cases rings with
  | nil => rfl
  | cons o rs => exact keepV_exact _ _ _

theorem getTilesPolygonV_float (M : Tid.Float.MathLib) (rings : List (List CoverF.Pt)) (zoom : Nat) :
    getTilesPolygonV (floatKit M) rings zoom = CoverF.getTilesPolygon M rings zoom := by
  cases rings with
  | nil => rfl
  | cons o rs => exact keepV_float M _ _ _

/-! ## Three situations in which nothing of the caller's is touched -/

/-- The rings `ss` read in `h'` as in `h`, and so does every slice that shares no cell with them. -/
def Unchanged {P : Type} (ss : List Slice) (h h' : Heap P) : Prop :=
  (∀ s ∈ ss, h'.read s = h.read s) ∧ ∀ t : Slice, t.Ok h → (∀ s ∈ ss, Apart s t) → h'.read t = h.read t

theorem read_write_behind {P : Type} {h : Heap P} {s : Slice} {p : P} (hs : s.Ok h) :
    (h.write s.arr (s.off + s.len) p).read s = h.read s := by
  obtain ⟨h3, l, hl, h4⟩ := hs
  rw [read_eq hl, read_eq (l := l.set (s.off + s.len) p) (by rw [write_get, hl]; simp)]
  rw [List.drop_set, if_neg (by omega), Nat.add_sub_cancel_left, List.take_set_of_le (le_refl _)]

theorem pip_ring_own [DecidableEq F] {room : Nat → Nat} {nil : F × F} {h h' : Heap (F × F)} {s c : Slice} (hs : s.Ok h)
    (e : ringH pipAct room nil h s = some (h', c)) : h'.read s = h.read s ∧ s.Ok h' := by
  unfold ringH pipAct at e
  split at e
  · rename_i f l hf hl
    by_cases hx : f.1 ≠ l.1
    · rw [if_pos hx] at e
      simp only [Option.some.injEq] at e
      have e1 : h' = (h.append room nil s f).1 := by rw [e]
      rw [e1]
      unfold Heap.append
      split
      · exact ⟨read_write_behind hs, Ok.write hs⟩
      · exact ⟨read_snoc hs, Ok.snoc hs⟩
    · rw [if_neg hx] at e
      simp only [Option.some.injEq, Prod.mk.injEq] at e
      rw [← e.1]
      exact ⟨rfl, hs⟩
  · cases e

/-- Rings that share no cell, even with their capacity. -/
theorem stable_apart [DecidableEq F] (room : Nat → Nat) (nil : F × F) (h : Heap (F × F)) (ss : List Slice) (hok : ∀ s ∈ ss, s.Ok h)
    (hap : ∀ s ∈ ss, ∀ t ∈ ss, s = t ∨ Apart s t) :
    Stable room nil ss h.read (fun m => (∀ s ∈ ss, s.Ok m) ∧ (∀ t : Slice, t.Ok h → t.Ok m) ∧ Unchanged ss h m) where
  ok m s hR hs := hR.1 s hs
  read m s hR hs := hR.2.2.1 s hs
  step m s m' c hR hs e := by
    obtain ⟨r1, r2⟩ := ringH_spec pipAct room nil m s (hR.1 s hs)
    obtain ⟨-, -, r3⟩ := r2 m' c e
    have hall : ∀ t : Slice, t.Ok m → t.Ok m' := by
      intro t ht
      unfold ringH pipAct at e
      split at e
      · rename_i f l hf hl
        by_cases hx : f.1 ≠ l.1
        · rw [if_pos hx] at e
          simp only [Option.some.injEq] at e
          have e1 : m' = (m.append room nil s f).1 := by rw [e]
          rw [e1]
          unfold Heap.append
          split
          · exact Ok.write ht
          · exact Ok.snoc ht
        · rw [if_neg hx] at e
          simp only [Option.some.injEq, Prod.mk.injEq] at e
          rw [← e.1]
          exact ht
      · cases e
    refine ⟨fun t ht => hall t (hR.1 t ht), fun t ht => hall t (hR.2.1 t ht), ?_, ?_⟩
    · intro t ht
      rcases hap s hs t ht with rfl | hst
      · rw [(pip_ring_own (hR.1 s hs) e).1, hR.2.2.1 s hs]
      · rw [(r3 t (hR.1 t ht) hst).1, hR.2.2.1 t ht]
    · intro t ht hst
      rw [(r3 t (hR.2.1 t ht) (hst s hs)).1, hR.2.2.2 t ht hst]

/-- Rings whose first and last longitude agree. -/
theorem stable_closed [DecidableEq F] (room : Nat → Nat) (nil : F × F) (h : Heap (F × F)) (ss : List Slice) (hok : ∀ s ∈ ss, s.Ok h)
    (hcl : ∀ s ∈ ss, ∀ f l, (h.read s).head? = some f → (h.read s).getLast? = some l → f.1 = l.1) :
    Stable room nil ss h.read (fun m => m = h) where
  ok m s hR hs := by rw [hR]; exact hok s hs
  read m s hR hs := by rw [hR]
  step m s m' c hR hs e := by
    subst hR
    unfold ringH pipAct at e
    split at e
    · rename_i f l hf hl
      rw [if_neg (by rw [hcl s hs f l hf hl]; simp)] at e
      simp only [Option.some.injEq, Prod.mk.injEq] at e
      exact e.1.symm
    · cases e

/-- Rings without spare capacity. -/
theorem stable_full [DecidableEq F] (room : Nat → Nat) (nil : F × F) (h : Heap (F × F)) (ss : List Slice) (hok : ∀ s ∈ ss, s.Ok h)
    (hcap : ∀ s ∈ ss, s.cap = s.len) : Stable room nil ss h.read (fun m => ∃ new, m = h ++ new) := by
  have ok' : ∀ (new : Heap (F × F)) (s : Slice), s.Ok h → s.Ok (h ++ new) ∧ (h ++ new).read s = h.read s := by
    intro new s hs
    obtain ⟨h1, l, hl, h2⟩ := hs
    have hg : (h ++ new)[s.arr]? = some l := by rw [List.getElem?_append_left (List.getElem?_eq_some_iff.1 hl).1]; exact hl
    exact ⟨⟨h1, l, hg, h2⟩, by rw [read_eq hl, read_eq hg]⟩
  refine ⟨?_, ?_, ?_⟩
  · rintro m s ⟨new, rfl⟩ hs
    exact (ok' new s (hok s hs)).1
  · rintro m s ⟨new, rfl⟩ hs
    exact (ok' new s (hok s hs)).2
  · rintro m s m' c ⟨new, rfl⟩ hs e
    unfold ringH pipAct at e
    split at e
    · rename_i f l hf hl
      by_cases hx : f.1 ≠ l.1
      · rw [if_pos hx] at e
        simp only [Option.some.injEq] at e
        have e1 : m' = ((h ++ new).append room nil s f).1 := by rw [e]
        rw [e1]
        unfold Heap.append
        rw [if_neg (by rw [hcap s hs]; omega)]
        exact ⟨_, List.append_assoc _ _ _⟩
      · rw [if_neg hx] at e
        simp only [Option.some.injEq, Prod.mk.injEq] at e
        exact ⟨new, e.1.symm⟩
    · cases e

/-! ## C92 -/

/-- **C92.** `Pip` of rings that share no memory answers as for lists of points and changes nothing the caller can read, in exact
arithmetic. -/
theorem C92_pip (room : Nat → Nat) (nil : Cover.Pt) (h : Heap Cover.Pt) (ss : List Slice) (hok : ∀ s ∈ ss, s.Ok h)
    (hap : ∀ s ∈ ss, ∀ t ∈ ss, s = t ∨ Apart s t) (p : Cover.Pt) :
    (pipH exactKit room nil h ss p).map Prod.snd = Cover.pip (ss.map h.read) p ∧
      ∀ h' b, pipH exactKit room nil h ss p = some (h', b) → Unchanged ss h h' := by
  obtain ⟨i1, i2⟩ := pipH_stable (K := exactKit) (stable_apart room nil h ss hok hap) p h
    ⟨hok, fun t ht => ht, fun _ _ => rfl, fun _ _ _ => rfl⟩
  exact ⟨by rw [i1, pipV_exact], fun h' b e => (i2 _ e).2.2⟩

/-- **C92.** The same in float64. -/
theorem C92_pip_float (M : Tid.Float.MathLib) (room : Nat → Nat) (nil : CoverF.Pt) (h : Heap CoverF.Pt) (ss : List Slice)
    (hok : ∀ s ∈ ss, s.Ok h) (hap : ∀ s ∈ ss, ∀ t ∈ ss, s = t ∨ Apart s t) (p : CoverF.Pt) :
    (pipH (floatKit M) room nil h ss p).map Prod.snd = CoverF.pip (ss.map h.read) p ∧
      ∀ h' b, pipH (floatKit M) room nil h ss p = some (h', b) → Unchanged ss h h' := by
  obtain ⟨i1, i2⟩ := pipH_stable (K := floatKit M) (stable_apart room nil h ss hok hap) p h
    ⟨hok, fun t ht => ht, fun _ _ => rfl, fun _ _ _ => rfl⟩
  exact ⟨by rw [i1, pipV_float], fun h' b e => (i2 _ e).2.2⟩

theorem coverPolygonH_stable [DecidableEq F] {K : Kit F B} {room : Nat → Nat} {nil : F × F} {ss : List Slice} {v : Slice → List (F × F)}
    {R : Heap (F × F) → Prop} (st : Stable room nil ss v R) (zoom : Nat) (h : Heap (F × F)) (hR : R h) (cover : List (List (F × F)) → Option (List TileID))
    (c0 : cover [] = none)
    (c1 : ∀ o r, cover (o :: r) = if o.length > 3 then getTilesPolygonV K (o :: r) zoom else some []) :
    (coverPolygonH K room nil zoom h ss).map Prod.snd = cover (ss.map v) ∧
      ∀ x, coverPolygonH K room nil zoom h ss = some x → R x.1 := by
  unfold coverPolygonH
  cases ss with
  | nil => simp [c0]
  | cons s ss =>
    dsimp only
    rw [List.map_cons]
    have hl : (v s).length = s.len := by rw [← st.read h s hR (by simp), read_length (st.ok h s hR (by simp))]
    rw [c1, hl]
    by_cases hg : s.len > 3
    · rw [if_pos hg, if_pos hg]
      exact getTilesPolygonH_stable (K := K) st zoom h hR
    · rw [if_neg hg, if_neg hg]
      refine ⟨rfl, ?_⟩
      intro x e
      simp only [Option.some.injEq] at e
      rw [← e]
      exact hR

/-- `TileCover` of a polygon and of a multi-polygon in memory, in exact arithmetic and in float64, gives the tiles of the lists the rings
read as, and every memory it ends with has the property `R`. -/
def CoverIs (room : Nat → Nat) (nilE : Cover.Pt) (nilF : CoverF.Pt) (hE : Heap Cover.Pt) (hF : Heap CoverF.Pt) (pss : List (List Slice))
    (RE : Heap Cover.Pt → Prop) (RF : Heap CoverF.Pt → Prop) : Prop :=
  ∀ (M : Tid.Float.MathLib) (ord : Nat → Nat → List TileID → List TileID) (zoom : Nat),
    (∀ ss ∈ pss, (coverPolygonH exactKit room nilE zoom hE ss).map Prod.snd = Cover.tileCover ord zoom (.polygon (ss.map hE.read)) ∧
      (∀ h' ts, coverPolygonH exactKit room nilE zoom hE ss = some (h', ts) → RE h') ∧
      (coverPolygonH (floatKit M) room nilF zoom hF ss).map Prod.snd = CoverF.tileCover M ord zoom (.polygon (ss.map hF.read)) ∧
      ∀ h' ts, coverPolygonH (floatKit M) room nilF zoom hF ss = some (h', ts) → RF h') ∧
    (coverMultiH exactKit room nilE zoom hE pss).map Prod.snd = Cover.tileCover ord zoom (.multiPolygon (pss.map (List.map hE.read))) ∧
    (∀ h' ts, coverMultiH exactKit room nilE zoom hE pss = some (h', ts) → RE h') ∧
    (coverMultiH (floatKit M) room nilF zoom hF pss).map Prod.snd =
      CoverF.tileCover M ord zoom (.multiPolygon (pss.map (List.map hF.read))) ∧
    ∀ h' ts, coverMultiH (floatKit M) room nilF zoom hF pss = some (h', ts) → RF h'

theorem coverIs_stable {room : Nat → Nat} {nilE : Cover.Pt} {nilF : CoverF.Pt} {hE : Heap Cover.Pt} {hF : Heap CoverF.Pt}
    {pss : List (List Slice)} {RE : Heap Cover.Pt → Prop} {RF : Heap CoverF.Pt → Prop}
    (sE : Stable room nilE pss.flatten hE.read RE) (sF : Stable room nilF pss.flatten hF.read RF) (iE : RE hE) (iF : RF hF) :
    CoverIs room nilE nilF hE hF pss RE RF := by
  intro M ord zoom
  have sub : ∀ ss ∈ pss, ∀ s ∈ ss, s ∈ pss.flatten := fun ss h1 s h2 => List.mem_flatten.2 ⟨ss, h1, h2⟩
  refine ⟨?_, ?_⟩
  · intro ss hss
    obtain ⟨a1, a2⟩ := coverPolygonH_stable (K := exactKit) (sE.sub (sub ss hss)) zoom hE iE
      (fun rs => Cover.tileCover ord zoom (.polygon rs)) rfl
      (by intro o r; rw [getTilesPolygonV_exact]; rfl)
    obtain ⟨b1, b2⟩ := coverPolygonH_stable (K := floatKit M) (sF.sub (sub ss hss)) zoom hF iF
      (fun rs => CoverF.tileCover M ord zoom (.polygon rs)) rfl
      (by intro o r; rw [getTilesPolygonV_float]; rfl)
    exact ⟨a1, fun h' ts e => a2 _ e, b1, fun h' ts e => b2 _ e⟩
  · obtain ⟨a1, a2⟩ := mergeH_stable (K := exactKit) sE zoom pss hE 0 [] iE sub
    obtain ⟨b1, b2⟩ := mergeH_stable (K := floatKit M) sF zoom pss hF 0 [] iF sub
    refine ⟨?_, fun h' ts e => a2 _ e, ?_, fun h' ts e => b2 _ e⟩
    · unfold coverMultiH
      rw [a1]
      simp only [getTilesPolygonV_exact, Cover.tileCover]
    · unfold coverMultiH
      rw [b1]
      simp only [getTilesPolygonV_float, CoverF.tileCover]

/-- **C92.** If the rings share no memory, also counting their capacity, `TileCover` of a polygon or a multi-polygon gives the tiles of
the lists the rings read as, and afterwards the rings and everything apart from them read as before. -/
theorem C92_cover (room : Nat → Nat) (nilE : Cover.Pt) (nilF : CoverF.Pt) (hE : Heap Cover.Pt) (hF : Heap CoverF.Pt)
    (pss : List (List Slice)) (okE : ∀ ss ∈ pss, ∀ s ∈ ss, s.Ok hE) (okF : ∀ ss ∈ pss, ∀ s ∈ ss, s.Ok hF)
    (hap : ∀ s ∈ pss.flatten, ∀ t ∈ pss.flatten, s = t ∨ Apart s t) :
    CoverIs room nilE nilF hE hF pss (Unchanged pss.flatten hE) (Unchanged pss.flatten hF) := by
  have oE : ∀ s ∈ pss.flatten, s.Ok hE := fun s hs => by
    obtain ⟨ss, h1, h2⟩ := List.mem_flatten.1 hs
    exact okE ss h1 s h2
  have oF : ∀ s ∈ pss.flatten, s.Ok hF := fun s hs => by
    obtain ⟨ss, h1, h2⟩ := List.mem_flatten.1 hs
    exact okF ss h1 s h2
  intro M ord zoom
  obtain ⟨a, b, c, d, e⟩ := coverIs_stable (stable_apart room nilE hE _ oE hap) (stable_apart room nilF hF _ oF hap)
    ⟨oE, fun t ht => ht, fun _ _ => rfl, fun _ _ _ => rfl⟩ ⟨oF, fun t ht => ht, fun _ _ => rfl, fun _ _ _ => rfl⟩ M ord zoom
  exact ⟨fun ss hss => ⟨(a ss hss).1, fun h' ts x => ((a ss hss).2.1 h' ts x).2.2, (a ss hss).2.2.1,
    fun h' ts x => ((a ss hss).2.2.2 h' ts x).2.2⟩, b, fun h' ts x => (c h' ts x).2.2, d, fun h' ts x => (e h' ts x).2.2⟩

/-- **C92.** If every ring starts and ends at the same longitude the memory is not written at all, wherever the rings lie. -/
theorem C92_closed (room : Nat → Nat) (nilE : Cover.Pt) (nilF : CoverF.Pt) (hE : Heap Cover.Pt) (hF : Heap CoverF.Pt)
    (pss : List (List Slice)) (okE : ∀ ss ∈ pss, ∀ s ∈ ss, s.Ok hE) (okF : ∀ ss ∈ pss, ∀ s ∈ ss, s.Ok hF)
    (clE : ∀ ss ∈ pss, ∀ s ∈ ss, ∀ f l, (hE.read s).head? = some f → (hE.read s).getLast? = some l → f.1 = l.1)
    (clF : ∀ ss ∈ pss, ∀ s ∈ ss, ∀ f l, (hF.read s).head? = some f → (hF.read s).getLast? = some l → f.1 = l.1) :
    CoverIs room nilE nilF hE hF pss (fun h' => h' = hE) (fun h' => h' = hF) := by
  have fl : ∀ {p : Slice → Prop}, (∀ ss ∈ pss, ∀ s ∈ ss, p s) → ∀ s ∈ pss.flatten, p s := fun h s hs => by
    obtain ⟨ss, h1, h2⟩ := List.mem_flatten.1 hs
    exact h ss h1 s h2
  exact coverIs_stable (stable_closed room nilE hE _ (fl okE) (fl clE)) (stable_closed room nilF hF _ (fl okF) (fl clF)) rfl rfl

/-- **C92.** If no ring has spare capacity, no array the caller has is written: there are only new arrays. -/
theorem C92_no_room (room : Nat → Nat) (nilE : Cover.Pt) (nilF : CoverF.Pt) (hE : Heap Cover.Pt) (hF : Heap CoverF.Pt)
    (pss : List (List Slice)) (okE : ∀ ss ∈ pss, ∀ s ∈ ss, s.Ok hE) (okF : ∀ ss ∈ pss, ∀ s ∈ ss, s.Ok hF)
    (hcap : ∀ ss ∈ pss, ∀ s ∈ ss, s.cap = s.len) :
    CoverIs room nilE nilF hE hF pss (fun h' => ∃ new, h' = hE ++ new) (fun h' => ∃ new, h' = hF ++ new) := by
  have fl : ∀ {p : Slice → Prop}, (∀ ss ∈ pss, ∀ s ∈ ss, p s) → ∀ s ∈ pss.flatten, p s := fun h s hs => by
    obtain ⟨ss, h1, h2⟩ := List.mem_flatten.1 hs
    exact h ss h1 s h2
  exact coverIs_stable (stable_full room nilE hE _ (fl okE) (fl hcap)) (stable_full room nilF hF _ (fl okF) (fl hcap)) ⟨[], by simp⟩
    ⟨[], by simp⟩

/-- **C92 (what a user would not expect).** A ring of different first and last longitudes with spare capacity, and a ring right behind it
in the same array: `Pip` overwrites the first point of the second ring with that of the first, in the caller's polygon, and answers for
the damaged polygon. -/
theorem C92_next_ring_damaged (room : Nat → Nat) (nil : CoverF.Pt) (M : Tid.Float.MathLib) (h : Heap CoverF.Pt) (s t : Slice) (hs : s.Ok h)
    (ht : t.Ok h) (harr : t.arr = s.arr) (hoff : t.off = s.off + s.len) (hcap : s.len < s.cap) (htc : t.cap = t.len) (f l : CoverF.Pt)
    (hf : (h.read s).head? = some f) (hl : (h.read s).getLast? = some l) (hfl : f.1 ≠ l.1) (hlen : 0 < t.len) (p : CoverF.Pt) :
    ∃ h' b, pipH (floatKit M) room nil h [s, t] p = some (h', b) ∧ h'.read s = h.read s ∧ h'.read t = f :: (h.read t).tail ∧
      CoverF.pip [h.read s, f :: (h.read t).tail] p = some b := by
  have hact : pipAct f l = .append := by unfold pipAct; rw [if_pos hfl]
  obtain ⟨h1, c, e1, rc, rt⟩ := C87_next_ring_damaged pipAct room nil h s t hs ht harr hoff hcap f l hf hl hact hlen
  obtain ⟨o1, o2⟩ := pip_ring_own hs e1
  have ht1 : t.Ok h1 := by
    have : ringH pipAct room nil h s = some (h.append room nil s f) := by unfold ringH; simp only [hf, hl, hact]
    rw [this] at e1
    simp only [Option.some.injEq] at e1
    have e2 : h1 = (h.append room nil s f).1 := by rw [e1]
    rw [e2]
    unfold Heap.append
    rw [if_pos hcap]
    exact Ok.write ht
  -- the second ring
  obtain ⟨q1, q2⟩ := ringH_spec pipAct room nil h1 t ht1
  rw [rt] at q1 q2
  cases hr : ringH pipAct room nil h1 t with
  | none =>
    have := q1.1 hr
    rw [ringV_pipAct] at this
    cases this
  | some y =>
    obtain ⟨h2, c2⟩ := y
    obtain ⟨v2, -, -⟩ := q2 h2 c2 hr
    obtain ⟨w1, -⟩ := pip_ring_own ht1 hr
    have ws : h2.read s = h1.read s := by
      have hn := hr
      unfold ringH pipAct at hn
      split at hn
      · rename_i f' l' _ _
        by_cases hx : f'.1 ≠ l'.1
        · rw [if_pos hx] at hn
          simp only [Option.some.injEq] at hn
          have e2 : h2 = (h1.append room nil t f').1 := by rw [hn]
          rw [e2]
          unfold Heap.append
          rw [if_neg (by omega)]
          exact read_snoc o2
        · rw [if_neg hx] at hn
          simp only [Option.some.injEq, Prod.mk.injEq] at hn
          rw [← hn.1]
      · cases hn
    have ev : ringV pipAct (h.read s) = some (h.read s ++ [f]) := by
      unfold ringV
      simp only [hf, hl, hact]
    refine ⟨h2, (countRing (floatKit M) p (h1.read c) + (countRing (floatKit M) p (h2.read c2) + 0)) % 2 != 0,
      by unfold pipH; simp only [pipCountH, e1, hr, Option.map_some], by rw [ws, o1], by rw [w1, rt], ?_⟩
    rw [← pipV_float M]
    unfold pipV
    simp only [pipCountV, ev, v2, rc, Option.map_some]

/-- **C92 (what a user would not expect).** A square of four corners and a square hole behind it in one array. The point (6, 2) is in the
square and not in the hole, but `Pip` answers for a hole whose first corner is the square's. -/
theorem C92_wrong_answer (M : Tid.Float.MathLib) : ∃ (h : Heap CoverF.Pt) (s t : Slice) (p : CoverF.Pt), s.Ok h ∧ t.Ok h ∧
    CoverF.pip [h.read s, h.read t] p = some true ∧ ∀ room nil, (pipH (floatKit M) room nil h [s, t] p).map Prod.snd = some false := by
  refine ⟨[[(9, 0), (9, 9), (0, 9), (0, 0), (3, 3), (3, 6), (6, 6), (6, 3), (3, 3)]], ⟨0, 0, 4, 9⟩, ⟨0, 4, 5, 5⟩, (6, 2),
    ⟨by decide, _, rfl, by decide⟩, ⟨by decide, _, rfl, by decide⟩, by decide +kernel, ?_⟩
  intro room nil
  obtain ⟨h', b, e1, -, -, e2⟩ := C92_next_ring_damaged room nil M
    [[(9, 0), (9, 9), (0, 9), (0, 0), (3, 3), (3, 6), (6, 6), (6, 3), (3, 3)]] ⟨0, 0, 4, 9⟩ ⟨0, 4, 5, 5⟩
    ⟨by decide, _, rfl, by decide⟩ ⟨by decide, _, rfl, by decide⟩ rfl rfl (by decide) rfl (9, 0) (0, 0) rfl rfl (by decide) (by decide) (6, 2)
  rw [e1]
  have e3 : CoverF.pip [Heap.read [[(9, 0), (9, 9), (0, 9), (0, 0), (3, 3), (3, 6), (6, 6), (6, 3), (3, 3)]] ⟨0, 0, 4, 9⟩,
    (9, 0) :: (Heap.read [[(9, 0), (9, 9), (0, 9), (0, 0), (3, 3), (3, 6), (6, 6), (6, 3), (3, 3)]] ⟨0, 4, 5, 5⟩).tail] (6, 2) =
    some false := by decide +kernel
  rw [e3] at e2
  exact e2.symm

/-- Rings in arrays of their own with spare capacity meet the hypotheses of `C92_cover`; the open ring is closed in its spare cell. -/
example : ∃ (h : Heap CoverF.Pt) (s t : Slice), s.Ok h ∧ t.Ok h ∧ Apart s t ∧ s.len < s.cap ∧
    ringV pipAct (h.read s) = some (h.read s ++ [(9, 0)]) :=
  ⟨[[(9, 0), (9, 9), (0, 9), (0, 0), (1, 1)], [(3, 3), (3, 6), (6, 6), (3, 3)]], ⟨0, 0, 4, 5⟩, ⟨1, 0, 4, 4⟩, ⟨by decide, _, rfl, by decide⟩,
    ⟨by decide, _, rfl, by decide⟩, .inl (by decide), by decide, by decide +kernel⟩

end Verif.CoverH
