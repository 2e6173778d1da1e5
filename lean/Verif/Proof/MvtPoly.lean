import Verif.Proof.MvtGeom
import Verif.Spec.MvtGeom
import Mathlib.Algebra.Order.Ring.Abs

/-! # Lemmas about rings, areas and grouping -/
namespace Verif.Mvt
open Verif.Go Spec

def tm (a b : Pt) : Int := (a.1 - b.1) * (b.2 + a.2)

theorem tm_self (a : Pt) : tm a a = 0 := by simp [tm]
theorem tm_swap (a b : Pt) : tm b a = - tm a b := by unfold tm; ring

theorem area2_cons (p q : Pt) (l : Line) : area2 (p :: q :: l) = tm p q + area2 (q :: l) := rfl

theorem areaSumR_eq (p : Pt) (ps : List Pt) : areaSumR p ps = area2 (p :: ps) := by
  induction ps generalizing p with
  | nil => rfl
  | cons q qs ih => rw [area2_cons, ← ih]; rfl

theorem getLast?_cons_lastOf (p : Pt) (ps : List Pt) : (p :: ps).getLast? = some (lastOf p ps) := by
  rw [List.getLast?_cons]; rfl

theorem signedArea_eq (p : Pt) (ps : List Pt) : signedArea (p :: ps) = tm (lastOf p ps) p + area2 (p :: ps) := by
  unfold signedArea
  simp only [getLast?_cons_lastOf, Option.getD_some, areaSumR_eq]; rfl

/-- On a closed ring the code's area is the shoelace sum. -/
theorem signedArea_closed (r : Line) (h : r.head? = r.getLast?) : signedArea r = area2 r := by
  cases r with
  | nil => rfl
  | cons p ps =>
    rw [signedArea_eq]
    rw [getLast?_cons_lastOf] at h
    simp at h
    rw [← h, tm_self, zero_add]

theorem area2_dd (p : Pt) (ps : List Pt) : area2 (p :: dd p ps) = area2 (p :: ps) := by
  induction ps generalizing p with
  | nil => rfl
  | cons q qs ih =>
    unfold dd
    split
    · rename_i h; subst h; rw [ih, area2_cons, tm_self, zero_add]
    · rw [area2_cons, area2_cons, ih]

theorem area2_destutter (r : Line) : area2 (r.destutter (· ≠ ·)) = area2 r := by
  cases r with
  | nil => rfl
  | cons p ps => rw [destutter_cons, area2_dd]

theorem area2_append_single (l : Line) (p q : Pt) : area2 (l ++ [p, q]) = area2 (l ++ [p]) + tm p q := by
  induction l with
  | nil => simp [area2, tm]
  | cons a l ih =>
    cases l with
    | nil => simp [area2, tm]
    | cons b l =>
      simp only [List.cons_append] at ih ⊢
      rw [area2_cons, area2_cons, ih]; ring

theorem area2_reverse (l : Line) : area2 l.reverse = - area2 l := by
  induction l with
  | nil => rfl
  | cons p l ih =>
    cases l with
    | nil => rfl
    | cons q l =>
      have : (p :: q :: l).reverse = l.reverse ++ [q, p] := by simp
      rw [this, area2_append_single, area2_cons]
      have e : (q :: l).reverse = l.reverse ++ [q] := by simp
      rw [← e, ih, tm_swap p q]; ring

theorem reverse_eq (l : Line) : reverse l = l.reverse := by
  unfold reverse
  have : ∀ acc : Line, l.foldl (fun acc p => p :: acc) acc = l.reverse ++ acc := by
    induction l with
    | nil => simp
    | cons p l ih => intro acc; simp [ih]
  simpa using this []

/-- Two points for which the int32 area products of the writer do not wrap. -/
def AreaPair (p q : Pt) : Prop := SmallPt p ∧ SmallPt q ∧ -2147483648 ≤ tm p q ∧ tm p q < 2147483648

theorem term32_eq {a b : Pt} (h : AreaPair a b) : term32 a b = tm a b := by
  obtain ⟨⟨⟨_, _⟩, _, _⟩, ⟨⟨_, _⟩, _, _⟩, h3, h4⟩ := h
  unfold term32
  unfold tm at *
  rw [i32_id (v := a.1 - b.1) (by omega) (by omega), i32_id (v := b.2 + a.2) (by omega) (by omega), i32_id h3 h4]

theorem areaSum_eq (p : Pt) (ps : List Pt) (hs : ∀ q ∈ p :: ps, ∀ q' ∈ p :: ps, AreaPair q q') : areaSum p ps = area2 (p :: ps) := by
  induction ps generalizing p with
  | nil => rfl
  | cons q qs ih =>
    rw [areaSum, area2_cons, term32_eq (hs p (by simp) q (by simp)),
      ih q (fun a ha b hb => hs a (by simp [ha]) b (by simp [hb]))]

theorem windSum_eq (p : Pt) (ps : List Pt) (hs : ∀ q ∈ p :: ps, ∀ q' ∈ p :: ps, AreaPair q q') : windSum p ps = - area2 (p :: ps) := by
  induction ps generalizing p with
  | nil => rfl
  | cons q qs ih =>
    rw [windSum, area2_cons, term32_eq (hs q (by simp) p (by simp)),
      ih q (fun a ha b hb => hs a (by simp [ha]) b (by simp [hb])), tm_swap]; ring

theorem signedArea2_closed (r : Line) (h : r.head? = r.getLast?) (hs : ∀ q ∈ r, ∀ q' ∈ r, AreaPair q q') : signedArea2 r = area2 r := by
  cases r with
  | nil => rfl
  | cons p ps =>
    rw [signedArea2, areaSum_eq p ps hs]
    rw [← h]
    simp [term32_eq (hs p (by simp) p (by simp)), tm_self]

/-- The ring `AssertConvert` writes. -/
def orient (outer : Bool) (r : Line) : Line := if decide (area2 r > 0) ≠ outer then r.reverse else r

/-- The ring `assert_winding_order` writes. -/
def orientW (outer : Bool) (r : Line) : Line := if decide (area2 r < 0) ≠ outer then r.reverse else r

/-- A closed ring the encoder handles exactly. -/
def GoodRing (r : Line) : Prop :=
  r ≠ [] ∧ r.head? = r.getLast? ∧ (∀ p ∈ r, ∀ q ∈ r, AreaPair p q) ∧ r.length ≤ 4194304

theorem GoodRing.line {r : Line} (h : GoodRing r) : GoodLine r :=
  ⟨h.1, fun p hp => (h.2.2.1 p hp p hp).1, by have := h.2.2.2; omega⟩

theorem GoodRing.reverse {r : Line} (h : GoodRing r) : GoodRing r.reverse := by
  obtain ⟨a, b, c, d⟩ := h
  refine ⟨by simpa using a, ?_, by simpa using c, by simpa using d⟩
  simp [List.getLast?_reverse, b]

theorem GoodRing.orient {r : Line} (h : GoodRing r) (o : Bool) : GoodRing (orient o r) := by
  unfold Mvt.orient; split
  · exact h.reverse
  · exact h

theorem GoodRing.orientW {r : Line} (h : GoodRing r) (o : Bool) : GoodRing (orientW o r) := by
  unfold Mvt.orientW; split
  · exact h.reverse
  · exact h

theorem area2_orient (o : Bool) (r : Line) : area2 (orient o r) = if o then |area2 r| else - |area2 r| := by
  unfold orient
  cases o <;> by_cases h : area2 r > 0 <;> simp [h, area2_reverse]
  · exact (abs_of_pos h).symm
  · rw [abs_of_nonpos (by omega)]; ring
  · exact (abs_of_pos h).symm
  · exact (abs_of_nonpos (by omega)).symm

theorem area2_orientW (o : Bool) (r : Line) : area2 (orientW o r) = if o then - |area2 r| else |area2 r| := by
  unfold orientW
  cases o <;> by_cases h : area2 r < 0 <;> simp [h, area2_reverse]
  · exact (abs_of_neg h).symm
  · exact (abs_of_nonneg (by omega)).symm
  · rw [abs_of_neg h]; ring
  · exact (abs_of_nonneg (by omega)).symm

theorem makeLine_good (c : Cursor) (r : Line) (hl : SmallPt c.last) (hg : GoodLine r) :
    ∃ n, makeLine c r = some ⟨c.geometry ++ wordsLines false c.last [r], (r.getLast?).getD c.last, n⟩ := by
  obtain ⟨hne, hsm, hlen⟩ := hg
  cases r with
  | nil => exact absurd rfl hne
  | cons p ps =>
    simp only [List.length_cons] at hlen
    refine ⟨(dd p ps).length, ?_⟩
    rw [makeLine_eq c p ps hl (hsm p (by simp)) (fun q hq => hsm q (by simp [hq])) (by omega)]
    simp [wordsLines, getLast?_cons_lastOf]

theorem lastLines_single (last : Pt) (r : Line) : lastLines last [r] = (r.getLast?).getD last := by
  cases r with
  | nil => rfl
  | cons p ps => simp [lastLines, getLast?_cons_lastOf]

theorem wordsLines_close (last : Pt) (r : Line) (h : r ≠ []) : wordsLines true last [r] = wordsLines false last [r] ++ [15] := by
  cases r with
  | nil => exact absurd rfl h
  | cons p ps => simp [wordsLines]

theorem closePath_one : closePath 1 = 15 := by decide

theorem assertConvert_eq (c : Cursor) (o : Bool) (r : Line) (hl : SmallPt c.last) (hg : GoodRing r) :
    assertConvert c o r = some { c with geometry := c.geometry ++ wordsLines true c.last [orient o r], last := lastLines c.last [orient o r] } := by
  have ho := hg.orient o
  have hor : (if decide (signedArea2 r > 0) ≠ o then Mvt.reverse r else r) = orient o r := by
    unfold orient; rw [signedArea2_closed r hg.2.1 hg.2.2.1, reverse_eq]
  obtain ⟨n, hn⟩ := makeLine_good ⟨[], c.last, 0⟩ (orient o r) hl ho.line
  unfold assertConvert
  cases r with
  | nil => exact absurd rfl hg.1
  | cons p ps =>
    simp only [hor]
    rw [hn]
    simp only [Option.map_some, List.nil_append, closePath_one, lastLines_single, wordsLines_close _ _ ho.1]

theorem convertHoles_eq (rs : List Line) (c : Cursor) (hl : SmallPt c.last) (hg : ∀ r ∈ rs, GoodRing r) :
    convertHoles c rs = some { c with geometry := c.geometry ++ wordsLines true c.last (rs.map (orient false)), last := lastLines c.last (rs.map (orient false)) } := by
  induction rs generalizing c with
  | nil => simp [convertHoles, wordsLines, lastLines]
  | cons r rs ih =>
    have hr := hg r (by simp)
    rw [convertHoles, assertConvert_eq c false r hl hr]
    simp only [Option.bind_some]
    rw [ih]
    · simp only [List.map_cons, List.append_assoc]
      rw [show orient false r :: rs.map (orient false) = [orient false r] ++ rs.map (orient false) from rfl,
        wordsLines_append, lastLines_append]
    · exact small_lastLines hl (by
        intro l hm q hq; simp at hm; subst hm; exact ((hr.orient false).2.2.1 q hq q hq).1)
    · exact fun q hq => hg q (by simp [hq])

theorem trimRing_eq {P : Type} [DecidableEq P] (r : List P) (h : r ≠ []) : trimRing r = some (close r) := by
  cases r with
  | nil => exact absurd rfl h
  | cons p ps =>
    simp only [trimRing, close]
    by_cases e : (p :: ps).getLast? = some p
    · rw [if_pos e]; simp [e]
    · rw [if_neg e, if_neg (by rw [List.head?_cons]; exact fun h => e h.symm)]; simp

theorem trimPolygon_eq {P : Type} [DecidableEq P] (rs : List (List P)) (h : ∀ r ∈ rs, r ≠ []) : trimPolygon rs = some (rs.map close) := by
  induction rs with
  | nil => rfl
  | cons r rs ih =>
    simp [trimPolygon, trimRing_eq r (h r (by simp)), ih (fun q hq => h q (by simp [hq]))]

/-- The oriented rings of a polygon. -/
def orientPoly : List Line → List Line
  | [] => []
  | r :: rs => orient true r :: rs.map (orient false)

theorem makePolygonFloat_eq {F : Type} [DecidableEq F] (sp : F → Pt) (c : Cursor) (coords : List (List F)) (hne : coords ≠ [])
    (hr : ∀ r ∈ coords, r ≠ []) (hl : SmallPt c.last) (hg : ∀ r ∈ coords, GoodRing ((close r).map sp)) :
    makePolygonFloat sp c coords = some { c with
      geometry := c.geometry ++ wordsLines true c.last (orientPoly (coords.map fun r => (close r).map sp))
      last := lastLines c.last (orientPoly (coords.map fun r => (close r).map sp)) } := by
  cases coords with
  | nil => exact absurd rfl hne
  | cons r rs =>
    have h0 := hg r (by simp)
    unfold makePolygonFloat
    rw [trimPolygon_eq _ hr]
    simp only [List.map_cons]
    rw [assertConvert_eq c true _ hl h0]
    simp only [Option.bind_some]
    rw [convertHoles_eq]
    · simp only [List.append_assoc, orientPoly, List.map_map]
      rw [show ∀ (x : Line) l, orient true x :: List.map (orient false ∘ fun r => List.map sp (close r)) l
        = [orient true x] ++ List.map (orient false ∘ fun r => List.map sp (close r)) l from fun _ _ => rfl,
        wordsLines_append, lastLines_append]
      rfl
    · exact small_lastLines hl (by
        intro l hm q hq; simp at hm; subst hm; exact ((h0.orient true).2.2.1 q hq q hq).1)
    · intro q hq
      simp at hq
      obtain ⟨a, ha, rfl⟩ := hq
      exact hg a (by simp [ha])

theorem orientPoly_good {rs : List Line} (h : ∀ r ∈ rs, GoodRing r) : ∀ r ∈ orientPoly rs, GoodRing r := by
  cases rs with
  | nil => simp [orientPoly]
  | cons r rs =>
    intro q hq
    simp [orientPoly] at hq
    rcases hq with rfl | ⟨a, ha, rfl⟩
    · exact (h r (by simp)).orient _
    · exact (h a (by simp [ha])).orient _

theorem makeMultiPolygonFloat_eq {F : Type} [DecidableEq F] (sp : F → Pt) (polys : List (List (List F))) (c : Cursor)
    (hne : ∀ p ∈ polys, p ≠ []) (hr : ∀ p ∈ polys, ∀ r ∈ p, r ≠ []) (hl : SmallPt c.last)
    (hg : ∀ p ∈ polys, ∀ r ∈ p, GoodRing ((close r).map sp)) :
    makeMultiPolygonFloat sp c polys = some { c with
      geometry := c.geometry ++ wordsLines true c.last (polys.flatMap fun p => orientPoly (p.map fun r => (close r).map sp))
      last := lastLines c.last (polys.flatMap fun p => orientPoly (p.map fun r => (close r).map sp)) } := by
  induction polys generalizing c with
  | nil => simp [makeMultiPolygonFloat, wordsLines, lastLines]
  | cons p ps ih =>
    rw [makeMultiPolygonFloat, makePolygonFloat_eq sp c p (hne p (by simp)) (hr p (by simp)) hl (hg p (by simp))]
    simp only [Option.bind_some]
    rw [ih]
    · simp only [List.flatMap_cons, wordsLines_append, lastLines_append, List.append_assoc]
    · exact fun q hq => hne q (by simp [hq])
    · exact fun q hq => hr q (by simp [hq])
    · refine small_lastLines hl ?_
      intro l hm q hq
      exact (orientPoly_good (by
        intro r hr'; simp at hr'; obtain ⟨a, ha, rfl⟩ := hr'; exact hg p (by simp) a ha) l hm).2.2.1 q hq q hq |>.1
    · exact fun q hq => hg q (by simp [hq])

/-! ### Grouping -/

theorem destutter_head (r : Line) : (r.destutter (· ≠ ·)).head? = r.head? := by
  cases r with
  | nil => rfl
  | cons p ps => rw [destutter_cons]; rfl

theorem destutter_last (r : Line) : (r.destutter (· ≠ ·)).getLast? = r.getLast? := by
  cases r with
  | nil => rfl
  | cons p ps => rw [destutter_cons, getLast?_cons_lastOf, getLast?_cons_lastOf, lastOf_dd]

theorem closeRing_closed (r : Line) (h : r.head? = r.getLast?) : closeRing r = r := by
  cases r with
  | nil => rfl
  | cons p ps => rw [closeRing, if_pos (by rw [← h]; rfl)]

theorem closeRing_destutter (r : Line) (h : GoodRing r) : closeRing (r.destutter (· ≠ ·)) = r.destutter (· ≠ ·) :=
  closeRing_closed _ (by rw [destutter_head, destutter_last, h.2.1])

theorem signedArea_destutter (r : Line) (h : GoodRing r) : signedArea (r.destutter (· ≠ ·)) = area2 r := by
  rw [signedArea_closed _ (by rw [destutter_head, destutter_last, h.2.1]), area2_destutter]

theorem appendLast_append (acc : List (List Line)) (q : List Line) (l : Line) : appendLast (acc ++ [q]) l = acc ++ [q ++ [l]] := by
  induction acc with
  | nil => rfl
  | cons a acc ih =>
    cases h : acc ++ [q] with
    | nil => simp at h
    | cons b bs => rw [List.cons_append, h, appendLast, ← h, ih, List.cons_append]; simp

/-- The fold of `groupRings`. -/
def gstep (polys : List (List Line)) (line : Line) : List (List Line) :=
  if line.length > 0 then
    if signedArea line > 0 then polys ++ [[line]] else appendLast polys line
  else polys

theorem groupRings_eq (ls : List Line) : groupRings ls = ls.foldl gstep [] := rfl

theorem gstep_holes (hs : List Line) (acc : List (List Line)) (q : List Line) (hne : ∀ h ∈ hs, h ≠ [])
    (ha : ∀ h ∈ hs, signedArea h ≤ 0) : hs.foldl gstep (acc ++ [q]) = acc ++ [q ++ hs] := by
  induction hs generalizing q with
  | nil => simp
  | cons h hs ih =>
    have h1 : h.length > 0 := List.length_pos_iff.mpr (hne h (by simp))
    have h2 : ¬ signedArea h > 0 := by have := ha h (by simp); omega
    rw [List.foldl_cons, gstep, if_pos h1, if_neg h2, appendLast_append, ih]
    · simp
    · exact fun x hx => hne x (by simp [hx])
    · exact fun x hx => ha x (by simp [hx])

theorem gstep_poly (r : Line) (hs : List Line) (acc : List (List Line)) (hr : r ≠ []) (hne : ∀ h ∈ hs, h ≠ [])
    (ha0 : signedArea r > 0 ∨ acc = []) (ha : ∀ h ∈ hs, signedArea h ≤ 0) :
    (r :: hs).foldl gstep acc = acc ++ [r :: hs] := by
  have h1 : r.length > 0 := List.length_pos_iff.mpr hr
  have e : gstep acc r = acc ++ [[r]] := by
    unfold gstep
    rw [if_pos h1]
    split
    · rfl
    · rcases ha0 with h | h
      · contradiction
      · subst h; rfl
  rw [List.foldl_cons, e, gstep_holes hs acc [r] hne ha]; rfl

end Verif.Mvt
