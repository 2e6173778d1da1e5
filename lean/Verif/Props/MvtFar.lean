import Verif.Props.MvtGeom

/-! # C25 for all int32 coordinates -/
namespace Verif.Mvt
open Verif.Go Spec

/-- From one point to the next both coordinates change by an int32. -/
def Near (a b : Pt) : Prop := IsI32 (b.1 - a.1) ∧ IsI32 (b.2 - a.2)

/-- The point is one of `int32`s. -/
def I32Pt (p : Pt) : Prop := IsI32 p.1 ∧ IsI32 p.2

/-- Equal but for multiples of 2^32 in the coordinates. -/
def Wrapped (p q : Pt) : Prop := (4294967296 : Int) ∣ (q.1 - p.1) ∧ (4294967296 : Int) ∣ (q.2 - p.2)

theorem i32_range (v : Int) : IsI32 (i32 v) := by
  unfold i32
  have h1 := Int.le_bmod (x := v) (m := 4294967296) (by decide)
  have h2 := Int.bmod_lt (x := v) (m := 4294967296) (by decide)
  constructor <;> omega

theorem i32_dvd (v : Int) : (4294967296 : Int) ∣ (i32 v - v) := by
  unfold i32
  exact Int.dvd_bmod_sub_self

theorem i32_zero {a b : Int} (ha : IsI32 a) (hb : IsI32 b) : i32 (b - a) = 0 ↔ b = a := by
  constructor
  · intro h
    have := i32_dvd (b - a)
    rw [h] at this
    obtain ⟨h1, h2⟩ := ha
    obtain ⟨h3, h4⟩ := hb
    omega
  · rintro rfl
    rw [sub_self]
    decide

/-- The next point the reader gets: its last point is `R`, the writer goes from `L` to `p`. -/
def unw1 (L R p : Pt) : Pt := (R.1 + i32 (p.1 - L.1), R.2 + i32 (p.2 - L.2))

/-- The points the reader gets for `ps`. -/
def unw : Pt → Pt → List Pt → List Pt
  | _, _, [] => []
  | L, R, p :: ps => unw1 L R p :: unw p (unw1 L R p) ps

theorem unw1_eq_iff {L R p : Pt} (hL : I32Pt L) (hp : I32Pt p) : unw1 L R p = R ↔ p = L := by
  unfold unw1
  constructor
  · intro h
    have h1 := congrArg Prod.fst h
    have h2 := congrArg Prod.snd h
    simp only at h1 h2
    exact Prod.ext ((i32_zero hL.1 hp.1).1 (by omega)) ((i32_zero hL.2 hp.2).1 (by omega))
  · rintro rfl
    have e : i32 0 = 0 := by decide
    apply Prod.ext <;> simp [e]

theorem unw_length (L R : Pt) (ps : List Pt) : (unw L R ps).length = ps.length := by
  induction ps generalizing L R with
  | nil => rfl
  | cons p ps ih => simp [unw, ih]

theorem unw_near (L R : Pt) (ps : List Pt) : (R :: unw L R ps).IsChain Near := by
  induction ps generalizing L R with
  | nil => exact List.IsChain.singleton _
  | cons p ps ih =>
    rw [unw]
    refine List.IsChain.cons_cons ?_ (ih p (unw1 L R p))
    unfold Near unw1
    simp only [add_sub_cancel_left]
    exact ⟨i32_range _, i32_range _⟩

theorem unw1_wrapped {L R p : Pt} (h : Wrapped L R) : Wrapped p (unw1 L R p) := by
  have h1 := i32_dvd (p.1 - L.1)
  have h2 := i32_dvd (p.2 - L.2)
  obtain ⟨h3, h4⟩ := h
  unfold Wrapped unw1
  constructor <;> dsimp only <;> omega

theorem unw_wrapped {L R : Pt} (h : Wrapped L R) (ps : List Pt) : List.Forall₂ Wrapped ps (unw L R ps) := by
  induction ps generalizing L R with
  | nil => exact .nil
  | cons p ps ih => exact .cons (unw1_wrapped h) (ih (unw1_wrapped h))

theorem wrapped_lastOf {L R : Pt} (h : Wrapped L R) (ps : List Pt) : Wrapped (lastOf L ps) (lastOf R (unw L R ps)) := by
  induction ps generalizing L R with
  | nil => exact h
  | cons p ps ih =>
    rw [unw, lastOf_cons, lastOf_cons]
    exact ih (unw1_wrapped h)

theorem i32Pt_lastOf {p : Pt} {ps : List Pt} (hp : I32Pt p) (hs : ∀ q ∈ ps, I32Pt q) : I32Pt (lastOf p ps) := by
  unfold lastOf
  cases h : ps.getLast? with
  | none => simpa using hp
  | some q => simpa using hs q (List.mem_of_getLast? h)

/-! ## The writer -/

theorem foldl_linePoint_far (R : Pt) (ps : List Pt) (c : Cursor) (hl : I32Pt c.last) (hs : ∀ p ∈ ps, I32Pt p)
    (hc : c.count + ps.length < 4294967296) :
    ps.foldl linePoint c = ⟨c.geometry ++ enc R (unw c.last R ps), lastOf c.last ps, c.count + (dd R (unw c.last R ps)).length⟩ := by
  induction ps generalizing c R with
  | nil => simp [enc, dd, lastOf, unw]
  | cons p ps ih =>
    have hp := hs p (by simp)
    simp only [List.length_cons] at hc
    rw [List.foldl_cons, lastOf_cons, unw]
    by_cases h : p = c.last
    · have hu : unw1 c.last R p = R := (unw1_eq_iff hl hp).2 h
      rw [linePoint_same c p h, ih R c hl (fun q hq => hs q (by simp [hq])) (by omega)]
      conv_rhs => unfold enc dd
      rw [hu, if_pos rfl, if_pos rfl, h]
    · have hu : unw1 c.last R p ≠ R := fun e => h ((unw1_eq_iff hl hp).1 e)
      have e : linePoint c p = ⟨c.geometry ++ [paramEnc (i32 (p.1 - c.last.1)), paramEnc (i32 (p.2 - c.last.2))], p,
          (c.count + 1) % 4294967296⟩ := by
        unfold linePoint
        rw [if_pos]
        · simp
        · rintro ⟨e1, e2⟩
          exact h (Prod.ext ((i32_zero hl.1 hp.1).1 e1) ((i32_zero hl.2 hp.2).1 e2))
      rw [e, ih (unw1 c.last R p) _ hp (fun q hq => hs q (by simp [hq])) (by rw [Nat.mod_eq_of_lt (by omega)]; simp only; omega)]
      conv_rhs => unfold enc dd
      rw [if_neg hu, if_neg hu, Nat.mod_eq_of_lt (by omega)]
      have e1 : (unw1 c.last R p).1 - R.1 = i32 (p.1 - c.last.1) := by unfold unw1; simp
      have e2 : (unw1 c.last R p).2 - R.2 = i32 (p.2 - c.last.2) := by unfold unw1; simp
      rw [e1, e2]
      simp
      omega

theorem makeLine_far (R : Pt) (c : Cursor) (p : Pt) (ps : List Pt) (hp : I32Pt p)
    (hs : ∀ q ∈ ps, I32Pt q) (hlen : ps.length < 536870912) :
    makeLine c (p :: ps) = some ⟨c.geometry ++ lineWords R (unw1 c.last R p) (unw p (unw1 c.last R p) ps), lastOf p ps,
      (dd (unw1 c.last R p) (unw p (unw1 c.last R p) ps)).length⟩ := by
  have hd := dd_length (unw1 c.last R p) (unw p (unw1 c.last R p) ps)
  rw [unw_length] at hd
  unfold makeLine
  simp only
  rw [foldl_linePoint_far (unw1 c.last R p)]
  · simp only [movePoint, moveTo, lineTo, lineWords]
    rw [cmdEnc_eq 1 1 (by decide) (by decide),
      cmdEnc_eq 2 (0 + (dd (unw1 c.last R p) (unw p (unw1 c.last R p) ps)).length) (by decide) (by omega)]
    have e1 : (unw1 c.last R p).1 - R.1 = i32 (p.1 - c.last.1) := by unfold unw1; simp
    have e2 : (unw1 c.last R p).2 - R.2 = i32 (p.2 - c.last.2) := by unfold unw1; simp
    rw [e1, e2]
    simp only [Nat.zero_add]
    congr 1
    congr 1
    rw [List.append_assoc, List.append_assoc, List.append_assoc, List.append_assoc]
    rw [List.set_append_right _ _ (by omega)]
    congr 1
    simp
  · exact hp
  · exact hs
  · simp only [movePoint]; omega

/-- The lines the reader gets. -/
def unwLines : Pt → Pt → List Line → List Line
  | _, _, [] => []
  | L, R, l :: ls => unw L R l :: unwLines (lastOf L l) (lastOf R (unw L R l)) ls

theorem makeMultiLine_far (ls : List Line) (R : Pt) (c : Cursor) (hl : I32Pt c.last) (hne : ∀ l ∈ ls, l ≠ [])
    (hlen : ∀ l ∈ ls, l.length ≤ 536870912) (hs : ∀ l ∈ ls, ∀ p ∈ l, I32Pt p) :
    ∃ n L, makeMultiLine c ls = some ⟨c.geometry ++ wordsLines false R (unwLines c.last R ls), L, n⟩ := by
  induction ls generalizing c R with
  | nil => exact ⟨c.count, c.last, by simp [makeMultiLine, wordsLines, unwLines]⟩
  | cons l ls ih =>
    cases l with
    | nil => exact absurd rfl (hne [] (by simp))
    | cons p ps =>
      have hp := hs (p :: ps) (by simp) p (by simp)
      have hq : ∀ q ∈ ps, I32Pt q := fun q hq => hs (p :: ps) (by simp) q (by simp [hq])
      have hn := hlen _ (List.mem_cons_self ..)
      simp only [List.length_cons] at hn
      obtain ⟨n, L, e⟩ := ih (lastOf (unw1 c.last R p) (unw p (unw1 c.last R p) ps))
        ⟨c.geometry ++ lineWords R (unw1 c.last R p) (unw p (unw1 c.last R p) ps), lastOf p ps,
          (dd (unw1 c.last R p) (unw p (unw1 c.last R p) ps)).length⟩ (i32Pt_lastOf hp hq) (fun m hm => hne m (by simp [hm]))
        (fun m hm => hlen m (by simp [hm])) (fun m hm => hs m (by simp [hm]))
      refine ⟨n, L, ?_⟩
      rw [makeMultiLine, makeLine_far R c p ps hp hq (by omega)]
      simp only [Option.bind_some, e]
      simp [wordsLines, unwLines, unw, lastOf_cons]

/-! ## The reader -/

theorem readPairs_near (l : Pt) (ps : List Pt) (rest : List Nat) (hc : (l :: ps).IsChain Near) :
    readPairs (dd l ps).length l (enc l ps ++ rest) = (dd l ps, lastOf l ps, rest) := by
  induction ps generalizing l with
  | nil => cases rest <;> simp [enc, dd, readPairs, lastOf]
  | cons p ps ih =>
    rw [List.isChain_cons_cons] at hc
    rw [lastOf_cons]
    unfold enc dd
    by_cases h : p = l
    · subst h; simp only [if_true]; exact ih _ hc.2
    · obtain ⟨⟨a1, a2⟩, a3, a4⟩ := hc.1
      simp only [if_neg h, List.length_cons, List.cons_append, readPairs]
      rw [deltaDim_paramEnc _ a1 a2, deltaDim_paramEnc _ a3 a4]
      have e : ((l.1 + (p.1 - l.1), l.2 + (p.2 - l.2)) : Pt) = p := Prod.ext (by simp) (by simp)
      rw [e, ih _ hc.2]

theorem rdLoop_line_near (ty total fuel : Nat) (start : Bool) (fp : Option Pt) (lines : List Line) (last p : Pt)
    (ps : List Pt) (rest : List Nat) (hty : ty = 2 ∨ ty = 3) (htot : total ≠ 3) (hsync : Sync start fp last)
    (hc : (last :: p :: ps).IsChain Near) :
    rdLoop ty total (fuel + 1) start fp lines (lineWords last p ps ++ rest)
      = rdLoop ty total fuel false (some (lastOf p ps)) (lines ++ [p :: dd p ps]) rest := by
  rw [List.isChain_cons_cons] at hc
  obtain ⟨⟨⟨a1, a2⟩, a3, a4⟩, hs⟩ := hc
  have e8 : (8 * (dd p ps).length + 2) / 8 = (dd p ps).length := by omega
  have e : ((last.1 + (p.1 - last.1), last.2 + (p.2 - last.2)) : Pt) = p := Prod.ext (by simp) (by simp)
  rw [lineWords, List.append_assoc]
  simp only [List.cons_append, List.nil_append, rdLoop, if_true]
  rw [deltaDim_paramEnc _ a1 a2, deltaDim_paramEnc _ a3 a4, e8]
  simp only [if_neg htot]
  rcases hsync with ⟨h1, h2⟩ | ⟨h1, h2⟩
  · subst h1 h2
    have e' : ((p.1 - 0, p.2 - 0) : Pt) = p := Prod.ext (by simp) (by simp)
    simp only [not_true, false_and, if_false, e', readPairs_near _ _ _ hs]
  · subst h1 h2
    simp only [Bool.false_eq_true, not_false_eq_true, true_and, hty, if_true, Option.map_some, e, readPairs_near _ _ _ hs]

theorem chain_lastOf (l : Pt) (ps qs : List Pt) (h : (l :: (ps ++ qs)).IsChain Near) :
    (l :: ps).IsChain Near ∧ (lastOf l ps :: qs).IsChain Near := by
  induction ps generalizing l with
  | nil => exact ⟨List.IsChain.singleton _, h⟩
  | cons p ps ih =>
    rw [List.cons_append, List.isChain_cons_cons] at h
    rw [lastOf_cons]
    exact ⟨List.IsChain.cons_cons h.1 (ih p h.2).1, (ih p h.2).2⟩

theorem rdLoop_lines_near (ty total : Nat) (hty : ty = 2 ∨ ty = 3) (htot : total ≠ 3) (ls : List Line) :
    ∀ (fuel : Nat) (start : Bool) (fp : Option Pt) (lines : List Line) (last : Pt), (wordsLines false last ls).length ≤ fuel →
    Sync start fp last → (∀ l ∈ ls, l ≠ []) → (last :: ls.flatten).IsChain Near →
    rdLoop ty total fuel start fp lines (wordsLines false last ls) = some (lines ++ ls.map (List.destutter (· ≠ ·))) := by
  induction ls with
  | nil => intro fuel start fp lines last _ _ _ _; simp [wordsLines, rdLoop]
  | cons l ls ih =>
    intro fuel start fp lines last hf hsync hne hc
    cases l with
    | nil => exact absurd rfl (hne [] (by simp))
    | cons p ps =>
      rw [List.flatten_cons] at hc
      obtain ⟨c1, c2⟩ := chain_lastOf last (p :: ps) ls.flatten hc
      rw [lastOf_cons] at c2
      rw [wordsLines, List.append_assoc] at hf ⊢
      simp only [Bool.false_eq_true, if_false, List.nil_append] at hf ⊢
      rw [rdLoop_fuel ty total fuel ((wordsLines false (lastOf p ps) ls).length + (lineWords last p ps).length + 1)]
      rotate_left
      · exact hf
      · simp; omega
      rw [rdLoop_line_near _ _ _ _ _ _ _ _ _ _ hty htot hsync c1]
      rw [ih _ _ _ _ _ (by omega) (Or.inr ⟨rfl, rfl⟩) (fun m hm => hne m (by simp [hm])) c2]
      simp [destutter_cons]

/-! ## C25 -/

theorem unwLines_near (L R : Pt) (ls : List Line) : (R :: (unwLines L R ls).flatten).IsChain Near := by
  induction ls generalizing L R with
  | nil => exact List.IsChain.singleton _
  | cons l ls ih =>
    rw [unwLines, List.flatten_cons]
    have glue : ∀ (R : Pt) (ps qs : List Pt), (R :: ps).IsChain Near → (lastOf R ps :: qs).IsChain Near →
        (R :: (ps ++ qs)).IsChain Near := by
      intro R ps
      induction ps generalizing R with
      | nil => intro qs _ h; exact h
      | cons p ps ih =>
        intro qs h1 h2
        rw [List.isChain_cons_cons] at h1
        rw [lastOf_cons] at h2
        exact List.IsChain.cons_cons h1.1 (ih p qs h1.2 h2)
    exact glue R _ _ (unw_near L R l) (ih _ _)

theorem unwLines_wrapped {L R : Pt} (h : Wrapped L R) (ls : List Line) :
    List.Forall₂ (List.Forall₂ Wrapped) ls (unwLines L R ls) := by
  induction ls generalizing L R with
  | nil => exact .nil
  | cons l ls ih => exact .cons (unw_wrapped h l) (ih (wrapped_lastOf h l))

theorem wrapped_refl (p : Pt) : Wrapped p p := by unfold Wrapped; simp

/-- **C25.** Lines of any int32 coordinates come back with the same points up to multiples of 2^32, and the multiples are those that make
every step, from (0,0) on and from one line to the next, fit an int32. -/
theorem C25_any_int32 (ls : List Line) (hne : ∀ l ∈ ls, l ≠ []) (hlen : ∀ l ∈ ls, l.length ≤ 2 ^ 29)
    (hr : ∀ l ∈ ls, ∀ p ∈ l, IsI32 p.1 ∧ IsI32 p.2) :
    ∃ c ls', makeMultiLine Cursor.new ls = some c ∧ loadGeometry 2 c.geometry = some (asLines (ls'.map noRepeats)) ∧
      List.Forall₂ (List.Forall₂ Wrapped) ls ls' ∧ ((0, 0) :: ls'.flatten).IsChain Near := by
  have hz : I32Pt (0, 0) := by unfold I32Pt IsI32; decide
  obtain ⟨n, L, hn⟩ := makeMultiLine_far ls (0, 0) Cursor.new hz hne hlen hr
  have hne' : ∀ l ∈ unwLines (0, 0) (0, 0) ls, l ≠ [] := by
    have hf := unwLines_wrapped (wrapped_refl (0, 0)) ls
    intro l hl e
    obtain ⟨i, hi, rfl⟩ := List.getElem_of_mem hl
    have := hf.get (i := i) (by rw [hf.length_eq]; exact hi) hi
    simp only [List.get_eq_getElem, e] at this
    have h0 : ls[i]'(by rw [hf.length_eq]; exact hi) = [] := by
      cases h : ls[i]'(by rw [hf.length_eq]; exact hi) with
      | nil => rfl
      | cons a b => rw [h] at this; cases this
    exact hne _ (List.getElem_mem _) h0
  refine ⟨_, unwLines (0, 0) (0, 0) ls, hn, ?_, unwLines_wrapped (wrapped_refl _) ls, unwLines_near _ _ ls⟩
  simp only [Cursor.new, List.nil_append]
  unfold loadGeometry
  rw [rdLoop_lines_near 2 _ (Or.inl rfl) (wordsLines_total _ _ _) _ _ true none [] (0, 0) le_rfl (Or.inl ⟨rfl, rfl⟩) hne'
    (unwLines_near _ _ ls)]
  simp only [List.nil_append, Option.bind_some]
  generalize unwLines (0, 0) (0, 0) ls = ls'
  match ls' with
  | [] => rfl
  | [l] => rfl
  | a :: b :: t => rfl

theorem near_self (a : Pt) : Near a a := by unfold Near IsI32; simp

theorem chain_dd (a : Pt) (ps rest : List Pt) : (a :: (dd a ps ++ rest)).IsChain Near ↔ (a :: (ps ++ rest)).IsChain Near := by
  induction ps generalizing a with
  | nil => rfl
  | cons p ps ih =>
    unfold dd
    by_cases h : p = a
    · subst h
      rw [if_pos rfl, List.cons_append, List.isChain_cons_cons, ih]
      exact ⟨fun h => ⟨near_self p, h⟩, fun h => h.2⟩
    · rw [if_neg h, List.cons_append, List.cons_append, List.isChain_cons_cons, List.isChain_cons_cons, ih]

theorem chain_noRepeats (a : Pt) (ls : List Line) :
    (a :: (ls.map noRepeats).flatten).IsChain Near ↔ (a :: ls.flatten).IsChain Near := by
  induction ls generalizing a with
  | nil => rfl
  | cons l ls ih =>
    rw [List.map_cons, List.flatten_cons, List.flatten_cons]
    cases l with
    | nil => exact ih a
    | cons p ps =>
      have glue : ∀ (R : Pt) (ps qs : List Pt),
          (R :: (ps ++ qs)).IsChain Near ↔ (R :: ps).IsChain Near ∧ (lastOf R ps :: qs).IsChain Near := by
        intro R ps
        induction ps generalizing R with
        | nil => intro qs; exact ⟨fun h => ⟨List.IsChain.singleton _, h⟩, fun h => h.2⟩
        | cons p ps ih =>
          intro qs
          rw [List.cons_append, List.isChain_cons_cons, List.isChain_cons_cons, lastOf_cons, ih, and_assoc]
      have e : noRepeats (p :: ps) = p :: dd p ps := destutter_cons p ps
      rw [e, List.cons_append, List.cons_append, List.isChain_cons_cons, List.isChain_cons_cons, chain_dd, glue, glue, ih]

theorem near_unique {a : Pt} {ps qs : List Pt} (hp : (a :: ps).IsChain Near) (hq : (a :: qs).IsChain Near)
    (hw : List.Forall₂ Wrapped ps qs) : ps = qs := by
  induction hw generalizing a with
  | nil => rfl
  | cons h1 h2 ih =>
    rename_i p q ps qs
    rw [List.isChain_cons_cons] at hp hq
    have e : p = q := by
      obtain ⟨⟨a1, a2⟩, a3, a4⟩ := hp.1
      obtain ⟨⟨b1, b2⟩, b3, b4⟩ := hq.1
      obtain ⟨w1, w2⟩ := h1
      exact Prod.ext (by omega) (by omega)
    subst e
    rw [ih hp.2 hq.2]

theorem near_unique_lines {a : Pt} {ls ls' : List Line} (h1 : (a :: ls.flatten).IsChain Near) (h2 : (a :: ls'.flatten).IsChain Near)
    (hw : List.Forall₂ (List.Forall₂ Wrapped) ls ls') : ls = ls' := by
  have hf : List.Forall₂ Wrapped ls.flatten ls'.flatten := by
    clear h1 h2
    induction hw with
    | nil => exact .nil
    | cons h _ ih => exact List.rel_append h ih
  have he := near_unique h1 h2 hf
  have hl : ls.map List.length = ls'.map List.length := by
    clear h1 h2 hf he
    induction hw with
    | nil => rfl
    | cons h _ ih => simp only [List.map_cons, ih, h.length_eq]
  exact List.eq_iff_flatten_eq.2 ⟨he, hl⟩

theorem asLines_injective {a b : List Line} (h : asLines a = asLines b) : a = b := by
  match a, b with
  | [], [] => rfl
  | [], [_] => cases h
  | [], _ :: _ :: _ => cases h
  | [_], [] => cases h
  | [_], [_] => simpa [asLines] using h
  | [_], _ :: _ :: _ => cases h
  | _ :: _ :: _, [] => cases h
  | _ :: _ :: _, [_] => cases h
  | _ :: _ :: _, _ :: _ :: _ => simpa [asLines] using h

/-- **C25.** Exactly: lines of int32 coordinates come back (without repeated points) if and only if every step, from (0,0) on and from one
line to the next, fits an int32. -/
theorem C25_roundtrip_iff (ls : List Line) (hne : ∀ l ∈ ls, l ≠ []) (hlen : ∀ l ∈ ls, l.length ≤ 2 ^ 29)
    (hr : ∀ l ∈ ls, ∀ p ∈ l, IsI32 p.1 ∧ IsI32 p.2) :
    (∃ c, makeMultiLine Cursor.new ls = some c ∧ loadGeometry 2 c.geometry = some (asLines (ls.map noRepeats))) ↔
      ((0, 0) :: ls.flatten).IsChain Near := by
  obtain ⟨c, ls', h1, h2, h3, h4⟩ := C25_any_int32 ls hne hlen hr
  constructor
  · rintro ⟨c', e1, e2⟩
    rw [h1, Option.some.injEq] at e1
    rw [← e1, h2, Option.some.injEq] at e2
    rw [← chain_noRepeats, ← asLines_injective e2, chain_noRepeats]
    exact h4
  · intro h
    refine ⟨c, h1, ?_⟩
    rw [h2, near_unique_lines h h4 h3]

/-- A line from one end of the range to the other comes back 2^32 too far to the left. -/
example : (makeMultiLine Cursor.new [[(-2147483648, 0), (2147483647, 5)]]).map (loadGeometry 2 ·.geometry) =
    some (some (.lineString [(-2147483648, 0), (-2147483649, 5)])) := by decide

end Verif.Mvt
