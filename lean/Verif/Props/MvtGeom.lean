import Verif.Proof.MvtPoly

/-! # C24–C28: geometry commands of vector tiles -/
namespace Verif.Mvt
open Verif.Go Spec

/-! ## C24 -/

/-- **C24.** Reading back a zig-zag encoded parameter gives the value, for every int32. -/
theorem C24_zigzag_roundtrip (v : Int) (h : IsI32 v) : deltaDim (paramEnc v) = v :=
  deltaDim_paramEnc v h.1 h.2

/-- **C24.** The written word is the zig-zag word: `2v` for `v ≥ 0`, `-2v-1` for `v < 0`, a uint32. -/
theorem C24_zigzag_word (v : Int) (h : IsI32 v) :
    (paramEnc v : Int) = (if 0 ≤ v then 2 * v else -2 * v - 1) ∧ paramEnc v < 2 ^ 32 :=
  ⟨paramEnc_eq v h.1 h.2, paramEnc_lt v⟩

/-- **C24.** Every uint32 word is the encoding of the int32 it decodes to: the code is a bijection. -/
theorem C24_zigzag_bijective (n : Nat) (h : n < 2 ^ 32) : paramEnc (deltaDim n) = n ∧ IsI32 (deltaDim n) := by
  have hr : -2147483648 ≤ deltaDim n ∧ deltaDim n < 2147483648 := by rw [deltaDim_eq]; split <;> omega
  refine ⟨?_, hr⟩
  have h1 := paramEnc_eq _ hr.1 hr.2
  have h2 := deltaDim_eq n
  split at h1 <;> split at h2 <;> omega

example : paramEnc (-2147483648) = 4294967295 ∧ deltaDim 4294967295 = -2147483648 := by decide

/-- **C24.** A command integer holds the command id in its low three bits and the count above them. -/
theorem C24_command (count : Nat) (h : count < 2 ^ 29) :
    (moveTo count % 8 = 1 ∧ moveTo count / 8 = count) ∧ (lineTo count % 8 = 2 ∧ lineTo count / 8 = count) ∧
      (closePath count % 8 = 7 ∧ closePath count / 8 = count) := by
  unfold moveTo lineTo closePath
  rw [cmdEnc_eq 1 count (by decide) (by omega), cmdEnc_eq 2 count (by decide) (by omega), cmdEnc_eq 7 count (by decide) (by omega)]
  omega

/-- Beyond the limit the count is lost: the boundary in `C24_command` is exact. -/
theorem C24_command_limit : moveTo (2 ^ 29) = moveTo 0 := by decide

/-! ## C25 -/

/-- **C25.** Writing lines with `MakeMultiLine` from a new cursor never fails and `LoadGeometry` gives back the same lines
with only consecutive duplicate points removed: a LineString if there is one line, a MultiLineString otherwise. Lines are
non-empty, their coordinates are in [-2^30, 2^30) (so that differences fit in an int32) and they have at most 2^29 points. -/
theorem C25_lines_roundtrip (ls : List Line) (hne : ∀ l ∈ ls, l ≠ []) (hlen : ∀ l ∈ ls, l.length ≤ 2 ^ 29)
    (hr : ∀ l ∈ ls, ∀ p ∈ l, (-2 ^ 30 ≤ p.1 ∧ p.1 < 2 ^ 30) ∧ (-2 ^ 30 ≤ p.2 ∧ p.2 < 2 ^ 30)) :
    ∃ c, makeMultiLine Cursor.new ls = some c ∧
      loadGeometry 2 c.geometry = some (asLines (ls.map noRepeats)) := by
  have hg : ∀ l ∈ ls, GoodLine l := fun l hl => ⟨hne l hl, fun p hp => by
    obtain ⟨⟨a, b⟩, c, d⟩ := hr l hl p hp; refine ⟨⟨?_, ?_⟩, ?_, ?_⟩ <;> omega, hlen l hl⟩
  have hz : SmallPt (0, 0) := by decide
  obtain ⟨n, hn⟩ := makeMultiLine_eq ls Cursor.new hz hg
  refine ⟨_, hn, ?_⟩
  simp only [Cursor.new, List.nil_append]
  unfold loadGeometry
  rw [rdLoop_lines 2 _ (Or.inl rfl) (wordsLines_total _ _ _) false ls _ true none [] (0, 0) le_rfl (Or.inl ⟨rfl, rfl⟩) hz hg]
  simp only [List.nil_append, Option.bind_some]
  match ls with
  | [] => rfl
  | [l] => rfl
  | a :: b :: t => rfl

/-- **C25.** `MakeLine` alone: a single line comes back as a LineString. -/
theorem C25_line_roundtrip (l : Line) (hne : l ≠ []) (hlen : l.length ≤ 2 ^ 29)
    (hr : ∀ p ∈ l, (-2 ^ 30 ≤ p.1 ∧ p.1 < 2 ^ 30) ∧ (-2 ^ 30 ≤ p.2 ∧ p.2 < 2 ^ 30)) :
    ∃ c, makeLine Cursor.new l = some c ∧ loadGeometry 2 c.geometry = some (.lineString (noRepeats l)) := by
  obtain ⟨c, h1, h2⟩ := C25_lines_roundtrip [l] (by simpa using hne) (by simpa using hlen) (by simpa using hr)
  refine ⟨c, ?_, h2⟩
  rw [makeMultiLine] at h1
  cases h : makeLine Cursor.new l with
  | none => simp [h] at h1
  | some d => simpa [h, makeMultiLine] using h1

/-- **C25.** A line without consecutive duplicates comes back exactly. -/
theorem C25_line_exact (l : Line) (hne : l ≠ []) (hlen : l.length ≤ 2 ^ 29)
    (hr : ∀ p ∈ l, (-2 ^ 30 ≤ p.1 ∧ p.1 < 2 ^ 30) ∧ (-2 ^ 30 ≤ p.2 ∧ p.2 < 2 ^ 30)) (hd : l.IsChain (· ≠ ·)) :
    ∃ c, makeLine Cursor.new l = some c ∧ loadGeometry 2 c.geometry = some (.lineString l) := by
  have := C25_line_roundtrip l hne hlen hr
  rwa [show noRepeats l = l from List.destutter_of_isChain _ _ hd] at this

/-- The writer panics on an empty line, so the hypothesis is needed. -/
theorem C25_empty_line_panics : makeMultiLine Cursor.new [[]] = none := rfl

example : (makeMultiLine Cursor.new [[(1, 2), (1, 2), (3, -4)], [(5, 5)]]).map (loadGeometry 2 ·.geometry) =
    some (some (.multiLineString [[(1, 2), (3, -4)], [(5, 5)]])) := by decide

/-! ## C26 -/

/-- **C26 (what holds).** A single point other than (0,0) comes back, with coordinates in the int32 range. -/
theorem C26_point_roundtrip (p : Pt) (h : p ≠ (0, 0)) (h1 : IsI32 p.1) (h2 : IsI32 p.2) :
    loadGeometry 1 (makePoint Cursor.new p).geometry = some (.point p) ∧
      loadGeometry 1 (makeMultiPoint Cursor.new [p]).geometry = some (.point p) := by
  obtain ⟨x, y⟩ := p
  have hx : i32 x = x := i32_id h1.1 h1.2
  have hy : i32 y = y := i32_id h2.1 h2.2
  have hne : ¬ (x = 0 ∧ y = 0) := by rintro ⟨rfl, rfl⟩; exact h rfl
  have hm : moveTo 1 = 9 := by decide
  have hg : loadGeometry 1 [9, paramEnc x, paramEnc y] = some (.point (x, y)) := by
    unfold loadGeometry
    simp [rdLoop, buildGeom, C24_zigzag_roundtrip x h1, C24_zigzag_roundtrip y h2]
  constructor
  · simp only [makePoint, linePoint, Cursor.new, Int.sub_zero, hx, hy, if_pos hne, hm]; exact hg
  · simp only [makeMultiPoint, List.foldl, linePoint, Cursor.new, Int.sub_zero, hx, hy, if_pos hne]
    simpa [hm] using hg

/-- **C26 is false at the tile corner**: the point (0,0) is written without coordinates and reading it fails. -/
theorem C26_corner_point_lost :
    (makePoint Cursor.new (0, 0)).geometry = [9] ∧ loadGeometry 1 (makePoint Cursor.new (0, 0)).geometry = none := by decide

theorem rdLoop_no9 (ty total : Nat) (ws : List Nat) (h : 9 ∉ ws) (f : Nat) (hf : ws.length ≤ f) (st : Bool) (fp : Option Pt) (ls : List Line) :
    rdLoop ty total f st fp ls ws = some ls := by
  induction ws generalizing f st with
  | nil => simp [rdLoop]
  | cons w ws ih =>
    cases f with
    | zero => simp at hf
    | succ f =>
      simp only [List.mem_cons, not_or] at h
      unfold rdLoop
      rw [if_neg (fun e => h.1 e.symm)]; exact ih h.2 f (by simpa using hf) _

/-- **C26 is false for two or more points**: the reader does not know a MoveTo with a count above one. Whenever no encoded
difference happens to be the word 9, reading the geometry written for two or more points is an error. -/
theorem C26_multipoint_not_read (ps : List Pt) (h2 : 2 ≤ ps.length) (hl : ps.length < 2 ^ 29)
    (h9 : 9 ∉ (makeMultiPoint Cursor.new ps).geometry.tail) :
    loadGeometry 1 (makeMultiPoint Cursor.new ps).geometry = none := by
  have hshape : ∀ (qs : List Pt) (c : Cursor) (w : Nat) (t : List Nat), c.geometry = w :: t →
      ∃ t', (qs.foldl linePoint c).geometry = w :: t' := by
    intro qs
    induction qs with
    | nil => intro c w t h; exact ⟨t, h⟩
    | cons q qs ih =>
      intro c w t h
      rw [List.foldl_cons]
      have : ∃ t', (linePoint c q).geometry = w :: t' := by
        unfold linePoint; simp only
        split
        · exact ⟨_, by rw [h]; simp; rfl⟩
        · exact ⟨t, h⟩
      obtain ⟨t', h'⟩ := this
      exact ih _ w t' h'
  obtain ⟨t', h'⟩ := hshape ps ⟨[moveTo (ps.length % 4294967296)], (0, 0), 0⟩ _ [] rfl
  have hg : (makeMultiPoint Cursor.new ps).geometry = moveTo (ps.length % 4294967296) :: t' := h'
  rw [hg] at h9 ⊢
  have hw : moveTo (ps.length % 4294967296) = 8 * ps.length + 1 := by
    rw [Nat.mod_eq_of_lt (by omega)]; exact cmdEnc_eq 1 _ (by decide) (by omega)
  have hno : 9 ∉ moveTo (ps.length % 4294967296) :: t' := by
    rw [List.mem_cons, not_or, hw]; exact ⟨by omega, h9⟩
  unfold loadGeometry
  rw [rdLoop_no9 _ _ _ hno _ le_rfl]
  rfl

example : loadGeometry 1 (makeMultiPoint Cursor.new [(1, 1), (2, 2)]).geometry = none := by decide

theorem readPairs_bound (n : Nat) (fp : Pt) (ws : List Nat) :
    2 * (readPairs n fp ws).1.length + (readPairs n fp ws).2.2.length = ws.length := by
  induction n generalizing fp ws with
  | zero => simp [readPairs]
  | succ n ih =>
    match ws with
    | [] => simp [readPairs]
    | [_] => simp [readPairs]
    | a :: b :: ws =>
      have := ih (fp.1 + deltaDim a, fp.2 + deltaDim b) ws
      simp only [readPairs]
      generalize readPairs n (fp.1 + deltaDim a, fp.2 + deltaDim b) ws = r at this ⊢
      obtain ⟨r1, r2, r3⟩ := r
      simp only [List.length_cons] at this ⊢
      omega

theorem rdLoop_prefix (ty total : Nat) (ht : total ≠ 3) (f : Nat) (st : Bool) (fp : Option Pt) (lines out : List Line)
    (ws : List Nat) (h : rdLoop ty total f st fp lines ws = some out) : ∃ more, out = lines ++ more := by
  induction f generalizing st fp lines ws with
  | zero =>
    cases ws with
    | nil => simp only [rdLoop, Option.some.injEq] at h; exact ⟨[], by simp [h]⟩
    | cons w ws => simp [rdLoop] at h
  | succ f ih =>
    cases ws with
    | nil => simp only [rdLoop, Option.some.injEq] at h; exact ⟨[], by simp [h]⟩
    | cons w ws =>
      unfold rdLoop at h
      by_cases hw : w = 9
      · rw [if_pos hw] at h
        match ws, h with
        | [], h => simp at h
        | [_], h => simp at h
        | a :: b :: rest, h =>
          simp only [if_neg ht] at h
          split at h
          · simp at h
          · next p _ =>
            match rest, h with
            | [], h => simp only [Option.some.injEq] at h; exact ⟨[], by simp [h]⟩
            | cmd :: rest, h =>
              obtain ⟨m, hm⟩ := ih _ _ _ _ h
              exact ⟨_, by rw [hm, List.append_assoc]⟩
      · rw [if_neg hw] at h; exact ih _ _ _ _ h

/-- What the reader returns first is at most half as many points as there are words. -/
theorem rdLoop_first (ty total : Nat) (ht : total ≠ 3) (f : Nat) (st : Bool) (fp : Option Pt) (l : Line) (out : List Line)
    (ws : List Nat) (h : rdLoop ty total f st fp [] ws = some (l :: out)) : 2 * l.length + 2 ≤ ws.length := by
  induction f generalizing st fp ws with
  | zero => cases ws <;> simp [rdLoop] at h
  | succ f ih =>
    cases ws with
    | nil => simp [rdLoop] at h
    | cons w ws =>
      unfold rdLoop at h
      by_cases hw : w = 9
      · rw [if_pos hw] at h
        match ws, h with
        | [], h => simp at h
        | [_], h => simp at h
        | a :: b :: rest, h =>
          simp only [if_neg ht] at h
          split at h
          · simp at h
          · next p _ =>
            match rest, h with
            | [], h => simp at h
            | cmd :: rest, h =>
              obtain ⟨m, hm⟩ := rdLoop_prefix _ _ ht _ _ _ _ _ _ h
              simp only [List.nil_append, List.cons_append, List.cons.injEq] at hm
              have := readPairs_bound (cmd / 8) p rest
              rw [hm.1]; simp only [List.length_cons]; omega
      · rw [if_neg hw] at h
        have := ih _ _ _ h
        simp only [List.length_cons]; omega

theorem multiPoint_shape (ps : List Pt) :
    ∃ t, (makeMultiPoint Cursor.new ps).geometry = moveTo (ps.length % 4294967296) :: t ∧ t.length ≤ 2 * ps.length := by
  have hshape : ∀ (qs : List Pt) (c : Cursor) (w : Nat) (t : List Nat), c.geometry = w :: t →
      ∃ t', (qs.foldl linePoint c).geometry = w :: t' ∧ t'.length ≤ t.length + 2 * qs.length := by
    intro qs
    induction qs with
    | nil => intro c w t h; exact ⟨t, h, by simp⟩
    | cons q qs ih =>
      intro c w t h
      rw [List.foldl_cons]
      have : ∃ t', (linePoint c q).geometry = w :: t' ∧ t'.length ≤ t.length + 2 := by
        unfold linePoint; simp only
        split
        · rw [h]; exact ⟨_, by simp only [List.cons_append]; rfl, by simp⟩
        · exact ⟨t, h, by omega⟩
      obtain ⟨t', h', hl⟩ := this
      obtain ⟨t'', h'', hl'⟩ := ih _ w t' h'
      exact ⟨t'', h'', by simp only [List.length_cons]; omega⟩
  obtain ⟨t', h', hl⟩ := hshape ps ⟨[moveTo (ps.length % 4294967296)], (0, 0), 0⟩ _ [] rfl
  exact ⟨t', h', by simpa using hl⟩

/-- **C26, two or more points never come back.** Whatever the points, what the reader makes of a written multi-point of
two or more points is an error, a single point, or a multi-point of fewer points. -/
theorem C26_multipoint_never_roundtrips (ps : List Pt) (h2 : 2 ≤ ps.length) (hl : ps.length < 2 ^ 29) :
    loadGeometry 1 (makeMultiPoint Cursor.new ps).geometry = none ∨
      (∃ p, loadGeometry 1 (makeMultiPoint Cursor.new ps).geometry = some (.point p)) ∨
      ∃ qs, loadGeometry 1 (makeMultiPoint Cursor.new ps).geometry = some (.multiPoint qs) ∧ qs.length < ps.length := by
  obtain ⟨t, hg, ht⟩ := multiPoint_shape ps
  have hw : moveTo (ps.length % 4294967296) = 8 * ps.length + 1 := by
    rw [Nat.mod_eq_of_lt (by omega)]; exact cmdEnc_eq 1 _ (by decide) (by omega)
  rw [hg, hw]
  unfold loadGeometry
  by_cases h3 : ((8 * ps.length + 1) :: t).length = 3
  · left
    simp only [List.length_cons] at h3
    match t, h3 with
    | [a, b], _ =>
      by_cases ha : a = 9
      · subst ha
        simp only [List.length_cons, List.length_nil]
        unfold rdLoop; rw [if_neg (by omega)]; unfold rdLoop; rw [if_pos rfl]; rfl
      · simp only [List.length_cons, List.length_nil]
        unfold rdLoop; rw [if_neg (by omega)]; unfold rdLoop; rw [if_neg ha]; unfold rdLoop
        by_cases hb : b = 9
        · rw [if_pos hb]; rfl
        · rw [if_neg hb]; unfold rdLoop; rfl
  · cases hr : rdLoop 1 ((8 * ps.length + 1) :: t).length ((8 * ps.length + 1) :: t).length true none [] ((8 * ps.length + 1) :: t) with
    | none => left; rfl
    | some ls =>
      cases ls with
      | nil => left; simp [buildGeom]
      | cons l ls =>
        have hb : 2 * l.length + 2 ≤ t.length := by
          have h' := hr
          rw [List.length_cons] at h'; unfold rdLoop at h'; rw [if_neg (by omega)] at h'
          exact rdLoop_first _ _ (by simpa using h3) _ _ _ _ _ _ h'
        right
        match l, hb with
        | [p], _ => left; exact ⟨p, by simp [buildGeom]⟩
        | [], _ => right; exact ⟨[], by simp [buildGeom], by simp; omega⟩
        | a :: b :: l, hb => right; exact ⟨a :: b :: l, by simp [buildGeom], by omega⟩

/-- All three outcomes occur: a difference that is encoded as the word 9 is taken for a command. -/
example : loadGeometry 1 (makeMultiPoint Cursor.new [(-5, 1), (2, 9), (3, 4)]).geometry = some (.multiPoint [(1, 7), (2, 2)]) ∧
    loadGeometry 1 (makeMultiPoint Cursor.new [(-5, 1), (2, 3)]).geometry = some (.point (1, 7)) := by decide

/-- **C26, exactly.** A written list of fewer than 2^29 points comes back as these points exactly when it is one point
other than (0,0). -/
theorem C26_roundtrip_iff (ps : List Pt) (hl : ps.length < 2 ^ 29) (hi : ∀ p ∈ ps, IsI32 p.1 ∧ IsI32 p.2) :
    (loadGeometry 1 (makeMultiPoint Cursor.new ps).geometry = some (.multiPoint ps) ∨
      ∃ p, ps = [p] ∧ loadGeometry 1 (makeMultiPoint Cursor.new ps).geometry = some (.point p)) ↔
    ∃ p, ps = [p] ∧ p ≠ (0, 0) := by
  constructor
  · intro h
    match ps, hl, hi, h with
    | [], _, _, h =>
      have e : loadGeometry 1 (makeMultiPoint Cursor.new []).geometry = none := by decide
      rw [e] at h; simp at h
    | [p], _, _, h =>
      refine ⟨p, rfl, ?_⟩
      rintro rfl
      have e : loadGeometry 1 (makeMultiPoint Cursor.new [(0, 0)]).geometry = none := by decide
      rw [e] at h; simp at h
    | a :: b :: t, hl, _, h =>
      exfalso
      rcases h with h | ⟨p, hp, _⟩
      · rcases C26_multipoint_never_roundtrips (a :: b :: t) (by simp) hl with h' | ⟨p, h'⟩ | ⟨qs, h', hq⟩
        · rw [h] at h'; simp at h'
        · rw [h] at h'; simp at h'
        · rw [h] at h'; simp only [Option.some.injEq, Geom.multiPoint.injEq] at h'; rw [← h'] at hq; omega
      · simp at hp
  · rintro ⟨p, rfl, hp⟩
    exact Or.inr ⟨p, rfl, (C26_point_roundtrip p hp (hi p (by simp)).1 (hi p (by simp)).2).2⟩

/-- Even a standard-conforming multi-point (MoveTo with count 2) is an error. -/
theorem C26_standard_multipoint_is_error : loadGeometry 1 [17, 2, 2, 2, 2] = none := by decide

/-! ## C27 -/

/-- The reader on the words of polygons already oriented: outer rings positive (the first may have any area),
holes not positive. -/
theorem load_polygons (polys : List (List Line)) (hne : ∀ p ∈ polys, p ≠ [])
    (hg : ∀ p ∈ polys, ∀ r ∈ p, GoodRing r) (hout : ∀ p ∈ polys.tail, ∀ r ∈ p.head?, 0 < area2 r)
    (hhole : ∀ p ∈ polys, ∀ r ∈ p.tail, area2 r ≤ 0) :
    loadGeometry 3 (wordsLines true (0, 0) polys.flatten) = some (asPolygons (polys.map (List.map noRepeats))) := by
  have hgf : ∀ r ∈ polys.flatten, GoodRing r := by
    intro r hr; obtain ⟨p, hp, hr'⟩ := List.mem_flatten.mp hr; exact hg p hp r hr'
  have hz : SmallPt (0, 0) := by decide
  unfold loadGeometry
  rw [rdLoop_lines 3 _ (Or.inr rfl) (wordsLines_total _ _ _) true _ _ true none [] (0, 0) le_rfl (Or.inl ⟨rfl, rfl⟩) hz
    (fun l hl => (hgf l hl).line)]
  simp only [List.nil_append, Option.bind_some, buildGeom, if_true]
  have hmap : (polys.flatten.map (List.destutter (· ≠ ·))).map closeRing = (polys.map (List.map noRepeats)).flatten := by
    rw [List.map_map, ← List.map_flatten]
    exact List.map_congr_left fun r hr => closeRing_destutter r (hgf r hr)
  rw [hmap]
  have key : ∀ (qs : List (List Line)) (acc : List (List Line)), (∀ p ∈ qs, p ≠ []) → (∀ p ∈ qs, ∀ r ∈ p, GoodRing r) →
      (acc = [] ∨ ∀ p ∈ qs, ∀ r ∈ p.head?, 0 < area2 r) → (∀ p ∈ qs.tail, ∀ r ∈ p.head?, 0 < area2 r) →
      (∀ p ∈ qs, ∀ r ∈ p.tail, area2 r ≤ 0) →
      (qs.map (List.map noRepeats)).flatten.foldl gstep acc = acc ++ qs.map (List.map noRepeats) := by
    intro qs
    induction qs with
    | nil => intro acc _ _ _ _ _; simp
    | cons p qs ih =>
      intro acc h1 h2 h3 h4 h5
      cases p with
      | nil => exact absurd rfl (h1 [] (by simp))
      | cons r rs =>
        rw [List.map_cons, List.flatten_cons, List.foldl_append, List.map_cons, gstep_poly]
        · rw [ih]
          · simp
          · exact fun q hq => h1 q (by simp [hq])
          · exact fun q hq => h2 q (by simp [hq])
          · exact Or.inr (by simpa using h4)
          · exact fun q hq => h4 q (by simpa using List.mem_of_mem_tail hq)
          · exact fun q hq => h5 q (by simp [hq])
        · have := (h2 (r :: rs) (by simp) r (by simp)).1
          cases r with
          | nil => exact absurd rfl this
          | cons a b => rw [noRepeats, destutter_cons]; simp
        · intro h hh
          obtain ⟨s, hs, rfl⟩ := List.mem_map.mp hh
          have := (h2 (r :: rs) (by simp) s (by simp [hs])).1
          cases s with
          | nil => exact absurd rfl this
          | cons a b => rw [noRepeats, destutter_cons]; simp
        · rcases h3 with h | h
          · exact Or.inr h
          · left
            rw [noRepeats, signedArea_destutter _ (h2 (r :: rs) (by simp) r (by simp))]
            exact h (r :: rs) (by simp) r (by simp)
        · intro h hh
          obtain ⟨s, hs, rfl⟩ := List.mem_map.mp hh
          rw [noRepeats, signedArea_destutter _ (h2 (r :: rs) (by simp) s (by simp [hs]))]
          exact h5 (r :: rs) (by simp) s (by simpa using hs)
  have hgr : groupRings (polys.map (List.map noRepeats)).flatten = polys.map (List.map noRepeats) := by
    rw [groupRings_eq, key polys [] hne hg (Or.inl rfl) hout hhole]; rfl
  have hif : (if (polys.map (List.map noRepeats)).flatten.length = 1 then [(polys.map (List.map noRepeats)).flatten]
      else groupRings (polys.map (List.map noRepeats)).flatten) = polys.map (List.map noRepeats) := by
    split
    · rename_i h1
      match polys, hne with
      | [], _ => simp at h1
      | [p], _ => simp
      | p :: q :: t, hne =>
        have hp := List.length_pos_iff.mpr (hne p (by simp))
        have hq := List.length_pos_iff.mpr (hne q (by simp))
        simp at h1; omega
    · exact hgr
  rw [hif]
  match polys with
  | [] => rfl
  | [p] => rfl
  | a :: b :: t => rfl

theorem orientPoly_same (rings : List Line) : List.Forall₂ SameRing rings ((orientPoly rings).map noRepeats) := by
  have h1 : ∀ o r, SameRing r (noRepeats (orient o r)) := by
    intro o r; unfold orient SameRing; split
    · exact Or.inr rfl
    · exact Or.inl rfl
  cases rings with
  | nil => exact .nil
  | cons r rs =>
    refine .cons (h1 _ _) ?_
    simp only [List.map_map]
    induction rs with
    | nil => exact .nil
    | cons s rs ih => exact .cons (h1 _ _) ih

/-- **C27.** As `C27_polygon_roundtrip`, for all coordinates below 2^30 whose products in the area formula, for any two points of a ring,
fit an int32 (which is what the writer computes with), and with the orientation: the outer ring of every polygon read back has non-negative
area (clockwise on the map, y pointing south), every hole non-positive area. -/
theorem C27_polygon_general {F : Type} [DecidableEq F] (sp : F → Pt) (polys : List (List (List F)))
    (hne : ∀ p ∈ polys, p ≠ []) (hr : ∀ p ∈ polys, ∀ r ∈ p, r ≠ [])
    (hsz : ∀ p ∈ polys, ∀ r ∈ p, ∀ x ∈ r, |(sp x).1| < 2 ^ 30 ∧ |(sp x).2| < 2 ^ 30)
    (hpr : ∀ p ∈ polys, ∀ r ∈ p, ∀ x ∈ r, ∀ y ∈ r, |((sp x).1 - (sp y).1) * ((sp y).2 + (sp x).2)| < 2 ^ 31)
    (hlen : ∀ p ∈ polys, ∀ r ∈ p, r.length < 2 ^ 22)
    (hout : ∀ p ∈ polys.tail, ∀ r ∈ p.head?, area2 ((close r).map sp) ≠ 0) :
    ∃ c out, makeMultiPolygonFloat sp Cursor.new polys = some c ∧
      List.Forall₂ (List.Forall₂ SameRing) (polys.map (List.map fun r => (close r).map sp)) out ∧
      (∀ p ∈ out, (∀ r ∈ p.head?, 0 ≤ area2 r) ∧ ∀ r ∈ p.tail, area2 r ≤ 0) ∧
      loadGeometry 3 c.geometry = some (asPolygons out) := by
  have hg : ∀ p ∈ polys, ∀ r ∈ p, GoodRing ((close r).map sp) := by
    intro p hp r hrp
    have hn := hr p hp r hrp
    have hc : (close r) ≠ [] ∧ (close r).head? = (close r).getLast? ∧ (∀ x ∈ close r, x ∈ r) ∧ (close r).length ≤ r.length + 1 := by
      cases r with
      | nil => exact absurd rfl hn
      | cons a l =>
        unfold close
        split
        · rename_i h; exact ⟨hn, h, fun x h => h, by omega⟩
        · refine ⟨by simp, by simp [List.getLast?_cons], ?_, by simp⟩
          intro x hx; simp at hx ⊢; tauto
    obtain ⟨c1, c2, c3, c4⟩ := hc
    refine ⟨by simpa using c1, by simp [c2], ?_, ?_⟩
    · intro q hq
      obtain ⟨x, hx, rfl⟩ := List.mem_map.mp hq
      intro q' hq'
      obtain ⟨y, hy, rfl⟩ := List.mem_map.mp hq'
      have sx := hsz p hp r hrp x (c3 x hx)
      have sy := hsz p hp r hrp y (c3 y hy)
      have sp' := hpr p hp r hrp x (c3 x hx) y (c3 y hy)
      rw [abs_lt] at sp'
      rw [abs_lt, abs_lt] at sx sy
      refine ⟨⟨⟨?_, ?_⟩, ?_, ?_⟩, ⟨⟨?_, ?_⟩, ?_, ?_⟩, ?_, ?_⟩
      any_goals omega
      · unfold tm; have := sp'.1; norm_num at this; omega
      · unfold tm; have := sp'.2; norm_num at this; omega
    · have := hlen p hp r hrp
      simp; omega
  have hw := makeMultiPolygonFloat_eq sp polys Cursor.new hne hr (by decide) hg
  let ori := polys.map fun p => orientPoly (p.map fun r => (close r).map sp)
  refine ⟨_, ori.map (List.map noRepeats), hw, ?_, ?_, ?_⟩
  · clear hw
    induction polys with
    | nil => exact .nil
    | cons p ps _ =>
      rw [List.map_cons]
      have : ∀ qs : List (List (List F)), List.Forall₂ (List.Forall₂ SameRing) (qs.map (List.map fun r => (close r).map sp))
          ((qs.map fun p => orientPoly (p.map fun r => (close r).map sp)).map (List.map noRepeats)) := by
        intro qs
        induction qs with
        | nil => exact .nil
        | cons q qs ih => exact .cons (orientPoly_same _) ih
      exact this (p :: ps)
  · intro p hp
    obtain ⟨q, hq, rfl⟩ := List.mem_map.mp hp
    obtain ⟨p, _, rfl⟩ := List.mem_map.mp hq
    generalize p.map (fun r => (close r).map sp) = rings
    cases rings with
    | nil => simp [orientPoly]
    | cons r rs =>
      refine ⟨fun x hx => ?_, fun x hx => ?_⟩
      · simp only [orientPoly, List.map_cons, List.head?_cons, Option.mem_def, Option.some.injEq] at hx
        subst hx
        rw [noRepeats, area2_destutter, area2_orient, if_pos rfl]; exact abs_nonneg _
      · simp only [orientPoly, List.map_cons, List.tail_cons, List.map_map, List.mem_map] at hx
        obtain ⟨s, _, rfl⟩ := hx
        simp only [Function.comp_apply]
        rw [noRepeats, area2_destutter, area2_orient, if_neg (by simp)]
        have := abs_nonneg (area2 s); omega
  · have hfl : (polys.flatMap fun p => orientPoly (p.map fun r => (close r).map sp)) = ori.flatten := rfl
    simp only [Cursor.new, List.nil_append]
    rw [hfl, load_polygons ori]
    · intro q hq
      obtain ⟨p, hp, rfl⟩ := List.mem_map.mp hq
      cases p with
      | nil => exact absurd rfl (hne [] hp)
      | cons a b => simp [orientPoly]
    · intro q hq
      obtain ⟨p, hp, rfl⟩ := List.mem_map.mp hq
      refine orientPoly_good ?_
      intro r hr'
      obtain ⟨s, hs, rfl⟩ := List.mem_map.mp hr'
      exact hg p hp s hs
    · intro q hq r hr'
      rw [← List.map_tail] at hq
      obtain ⟨p, hp, rfl⟩ := List.mem_map.mp hq
      cases p with
      | nil => simp [orientPoly] at hr'
      | cons a b =>
        simp [orientPoly] at hr'
        subst hr'
        rw [area2_orient]
        simpa using hout (a :: b) hp a (by simp)
    · intro q hq r hr'
      obtain ⟨p, hp, rfl⟩ := List.mem_map.mp hq
      cases p with
      | nil => simp [orientPoly] at hr'
      | cons a b =>
        simp [orientPoly] at hr'
        obtain ⟨s, _, rfl⟩ := hr'
        rw [area2_orient]; simp

/-- Coordinates up to 23170 in size have products that fit. -/
theorem fits_23170 {a b : Pt} (ha : |a.1| ≤ 23170 ∧ |a.2| ≤ 23170) (hb : |b.1| ≤ 23170 ∧ |b.2| ≤ 23170) :
    |(a.1 - b.1) * (b.2 + a.2)| < 2 ^ 31 := by
  rw [abs_le, abs_le] at ha hb
  have hx : |a.1 - b.1| ≤ 46340 := by rw [abs_le]; omega
  have hy : |b.2 + a.2| ≤ 46340 := by rw [abs_le]; omega
  rw [abs_mul]
  exact lt_of_le_of_lt (mul_le_mul hx hy (abs_nonneg _) (by norm_num)) (by norm_num)

/-- **C27.** With coordinates in [-23170, 23170]. -/
theorem C27_polygon_oriented {F : Type} [DecidableEq F] (sp : F → Pt) (polys : List (List (List F)))
    (hne : ∀ p ∈ polys, p ≠ []) (hr : ∀ p ∈ polys, ∀ r ∈ p, r ≠ [])
    (hsz : ∀ p ∈ polys, ∀ r ∈ p, ∀ x ∈ r, |(sp x).1| ≤ 23170 ∧ |(sp x).2| ≤ 23170)
    (hlen : ∀ p ∈ polys, ∀ r ∈ p, r.length < 2 ^ 22)
    (hout : ∀ p ∈ polys.tail, ∀ r ∈ p.head?, area2 ((close r).map sp) ≠ 0) :
    ∃ c out, makeMultiPolygonFloat sp Cursor.new polys = some c ∧
      List.Forall₂ (List.Forall₂ SameRing) (polys.map (List.map fun r => (close r).map sp)) out ∧
      (∀ p ∈ out, (∀ r ∈ p.head?, 0 ≤ area2 r) ∧ ∀ r ∈ p.tail, area2 r ≤ 0) ∧
      loadGeometry 3 c.geometry = some (asPolygons out) :=
  C27_polygon_general sp polys hne hr (fun p hp r hrp x hx => by have := hsz p hp r hrp x hx; constructor <;> omega)
    (fun p hp r hrp x hx y hy => fits_23170 (hsz p hp r hrp x hx) (hsz p hp r hrp y hy)) hlen hout

/-- **C27.** With coordinates from 0 to 32767, as of features inside a tile whose extent is at most 32767. -/
theorem C27_polygon_inside {F : Type} [DecidableEq F] (sp : F → Pt) (polys : List (List (List F)))
    (hne : ∀ p ∈ polys, p ≠ []) (hr : ∀ p ∈ polys, ∀ r ∈ p, r ≠ [])
    (hsz : ∀ p ∈ polys, ∀ r ∈ p, ∀ x ∈ r, (0 ≤ (sp x).1 ∧ (sp x).1 ≤ 32767) ∧ 0 ≤ (sp x).2 ∧ (sp x).2 ≤ 32767)
    (hlen : ∀ p ∈ polys, ∀ r ∈ p, r.length < 2 ^ 22)
    (hout : ∀ p ∈ polys.tail, ∀ r ∈ p.head?, area2 ((close r).map sp) ≠ 0) :
    ∃ c out, makeMultiPolygonFloat sp Cursor.new polys = some c ∧
      List.Forall₂ (List.Forall₂ SameRing) (polys.map (List.map fun r => (close r).map sp)) out ∧
      (∀ p ∈ out, (∀ r ∈ p.head?, 0 ≤ area2 r) ∧ ∀ r ∈ p.tail, area2 r ≤ 0) ∧
      loadGeometry 3 c.geometry = some (asPolygons out) :=
  C27_polygon_general sp polys hne hr
    (fun p hp r hrp x hx => by have := hsz p hp r hrp x hx; rw [abs_lt, abs_lt]; constructor <;> constructor <;> omega)
    (fun p hp r hrp x hx y hy => by
      have h1 := hsz p hp r hrp x hx
      have h2 := hsz p hp r hrp y hy
      have hx : |(sp x).1 - (sp y).1| ≤ 32767 := by rw [abs_le]; omega
      have hy : |(sp y).2 + (sp x).2| ≤ 65534 := by rw [abs_le]; omega
      rw [abs_mul]
      exact lt_of_le_of_lt (mul_le_mul hx hy (abs_nonneg _) (by norm_num)) (by norm_num)) hlen hout

/-- **C27.** Beyond that the areas overflow: of a square of side 40000 with a square hole, in a tile of a larger extent, the outer ring
comes back in the wrong direction and the hole comes back as a second polygon. -/
theorem C27_overflow :
    (makeMultiPolygonFloat (fun p : Pt => p) Cursor.new [[[(0, 0), (40000, 0), (40000, 40000), (0, 40000)],
      [(100, 100), (100, 39000), (39000, 39000), (39000, 100)]]]).map (loadGeometry 3 ·.geometry) =
      some (some (.multiPolygon [[[(0, 0), (0, 40000), (40000, 40000), (40000, 0), (0, 0)]],
        [[(100, 100), (39000, 100), (39000, 39000), (100, 39000), (100, 100)]]])) ∧
    area2 [(0, 0), (0, 40000), (40000, 40000), (40000, 0), (0, 0)] < 0 := by
  constructor <;> decide +kernel

/-- The hypotheses of `C27_polygon_inside` are met by a polygon with a hole in a tile of extent 32767. -/
example : ∃ c out, makeMultiPolygonFloat (fun p : Pt => p) Cursor.new [[[(0, 0), (32767, 0), (32767, 32767), (0, 32767)],
      [(100, 100), (100, 32000), (32000, 32000), (32000, 100)]]] = some c ∧
      List.Forall₂ (List.Forall₂ SameRing) ([[[(0, 0), (32767, 0), (32767, 32767), (0, 32767)],
      [(100, 100), (100, 32000), (32000, 32000), (32000, 100)]]].map (List.map fun r => (close r).map fun p : Pt => p)) out ∧
      (∀ p ∈ out, (∀ r ∈ p.head?, 0 ≤ area2 r) ∧ ∀ r ∈ p.tail, area2 r ≤ 0) ∧
      loadGeometry 3 c.geometry = some (asPolygons out) :=
  C27_polygon_inside _ _ (by decide) (by decide) (by decide) (by decide) (by decide)

/-- **C27.** Polygons written with `MakeMultiPolygonFloat` from a new cursor (`sp` maps a point to tile coordinates) come
back from `LoadGeometry` as the same polygons with the same rings in the same order: a Polygon if there is one, a
MultiPolygon otherwise; every ring is the closed input ring, in one of the two directions, without consecutive duplicates.
Requires non-empty polygons and rings, tile coordinates in [-23170, 23170] (so that the int32 area products do not
overflow), at most 2^22 points per ring (so that the float64 sums are exact) and, for every polygon but the first, an outer
ring of non-zero area. -/
theorem C27_polygon_roundtrip {F : Type} [DecidableEq F] (sp : F → Pt) (polys : List (List (List F)))
    (hne : ∀ p ∈ polys, p ≠ []) (hr : ∀ p ∈ polys, ∀ r ∈ p, r ≠ [])
    (hsz : ∀ p ∈ polys, ∀ r ∈ p, ∀ x ∈ r, |(sp x).1| ≤ 23170 ∧ |(sp x).2| ≤ 23170)
    (hlen : ∀ p ∈ polys, ∀ r ∈ p, r.length < 2 ^ 22)
    (hout : ∀ p ∈ polys.tail, ∀ r ∈ p.head?, area2 ((close r).map sp) ≠ 0) :
    ∃ c out, makeMultiPolygonFloat sp Cursor.new polys = some c ∧
      List.Forall₂ (List.Forall₂ SameRing) (polys.map (List.map fun r => (close r).map sp)) out ∧
      loadGeometry 3 c.geometry = some (asPolygons out) := by
  obtain ⟨c, out, h1, h2, _, h3⟩ := C27_polygon_oriented sp polys hne hr hsz hlen hout
  exact ⟨c, out, h1, h2, h3⟩

/-- A square with a square hole and a second polygon meet the hypotheses and come back grouped. -/
example : (makeMultiPolygonFloat (fun p : Pt => p) Cursor.new
    [[[(0, 0), (10, 0), (10, 10), (0, 10)], [(2, 2), (4, 2), (4, 4), (2, 4)]], [[(20, 0), (30, 0), (30, 5)]]]).map
      (loadGeometry 3 ·.geometry) =
    some (some (.multiPolygon [[[(0, 0), (10, 0), (10, 10), (0, 10), (0, 0)], [(2, 2), (2, 4), (4, 4), (4, 2), (2, 2)]],
      [[(20, 0), (30, 0), (30, 5), (20, 0)]]])) := by decide

/-- The condition on outer rings is needed: a second polygon whose outer ring has no area is merged into the first. -/
theorem C27_flat_outer_ring_merges :
    (makeMultiPolygonFloat (fun p : Pt => p) Cursor.new [[[(0, 0), (10, 0), (10, 10)]], [[(20, 0), (30, 0), (20, 0)]]]).map
      (loadGeometry 3 ·.geometry) =
    some (some (.polygon [[(0, 0), (10, 0), (10, 10), (0, 0)], [(20, 0), (30, 0), (20, 0)]])) := by decide

/-! ## C28 -/

theorem assertWindingOrder_eq (o : Bool) (r : Line) (h : GoodRing r) : assertWindingOrder o r = some (orientW o r) := by
  obtain ⟨hne, hc, hs, _⟩ := h
  cases r with
  | nil => exact absurd rfl hne
  | cons p ps =>
    unfold assertWindingOrder orientW
    simp only [← hc, List.head?_cons, Option.getD_some, term32_eq (hs p (by simp) p (by simp)), tm_self, add_zero,
      windSum_eq p ps hs, reverse_eq]
    have e : (- area2 (p :: ps) > 0) ↔ (area2 (p :: ps) < 0) := by omega
    simp only [e]

theorem polygonHoles_eq (rs : List Line) (c : Cursor) (hl : SmallPt c.last) (hg : ∀ r ∈ rs, GoodRing r) :
    polygonHoles c rs = some { c with geometry := c.geometry ++ wordsLines true c.last (rs.map (orientW false)), last := lastLines c.last (rs.map (orientW false)) } := by
  induction rs generalizing c with
  | nil => simp [polygonHoles, wordsLines, lastLines]
  | cons r rs ih =>
    have hr := hg r (by simp)
    obtain ⟨n, hn⟩ := makeLine_good ⟨[], c.last, 0⟩ (orientW false r) hl (hr.orientW false).line
    rw [polygonHoles, assertWindingOrder_eq false r hr]
    simp only [Option.bind_some]
    rw [hn]
    simp only [Option.bind_some]
    rw [ih]
    · simp only [List.map_cons, List.append_assoc, List.nil_append, closePath_one]
      rw [show orientW false r :: rs.map (orientW false) = [orientW false r] ++ rs.map (orientW false) from rfl,
        wordsLines_append, lastLines_append, wordsLines_close _ _ (hr.orientW false).1, lastLines_single, List.append_assoc]
    · rw [← lastLines_single]
      exact small_lastLines hl (by
        intro l hm q hq; simp at hm; subst hm; exact ((hr.orientW false).2.2.1 q hq q hq).1)
    · exact fun q hq => hg q (by simp [hq])

/-- The rings of a polygon in the direction `MakePolygon` writes them. -/
def orientPolyW : List Line → List Line
  | [] => []
  | r :: rs => orientW true (close r) :: (rs.map close).map (orientW false)

theorem makePolygon_eq' (c : Cursor) (r : Line) (rs : List Line) (hl : SmallPt c.last) (h : ∀ q ∈ r :: rs, q ≠ [])
    (hg : ∀ q ∈ r :: rs, GoodRing (close q)) :
    ∃ n, makePolygon c (r :: rs) = some
      ⟨c.geometry ++ wordsLines true c.last (orientPolyW (r :: rs)), lastLines c.last (orientPolyW (r :: rs)), n⟩ := by
  have hr := hg r (by simp)
  unfold makePolygon
  rw [trimPolygon_eq _ h]
  simp only [List.map_cons]
  obtain ⟨n, hn⟩ := makeLine_good c (orientW true (close r)) hl (hr.orientW true).line
  rw [assertWindingOrder_eq true _ hr]
  simp only [Option.bind_some]
  rw [hn]
  simp only [Option.bind_some]
  rw [polygonHoles_eq]
  · refine ⟨n, ?_⟩
    simp only [closePath_one, orientPolyW]
    rw [show ∀ (x : Line) l, orientW true x :: List.map (orientW false) l = [orientW true x] ++ List.map (orientW false) l from fun _ _ => rfl,
      wordsLines_append, lastLines_append, wordsLines_close _ _ (hr.orientW true).1, lastLines_single]
    simp only [List.append_assoc]
  · simp only
    rw [← lastLines_single]
    exact small_lastLines hl (by
      intro l hm q hq; simp at hm; subst hm; exact ((hr.orientW true).2.2.1 q hq q hq).1)
  · intro q hq
    obtain ⟨s, hs, rfl⟩ := List.mem_map.mp hq
    exact hg s (by simp [hs])

theorem makePolygon_eq (r : Line) (rs : List Line) (h : ∀ q ∈ r :: rs, q ≠ []) (hg : ∀ q ∈ r :: rs, GoodRing (close q)) :
    ∃ c, makePolygon Cursor.new (r :: rs) = some c ∧
      c.geometry = wordsLines true (0, 0) (orientW true (close r) :: (rs.map close).map (orientW false)) := by
  obtain ⟨n, hn⟩ := makePolygon_eq' Cursor.new r rs (by decide) h hg
  exact ⟨_, hn, by simp [Cursor.new, orientPolyW]⟩

theorem orientPolyW_good {rs : List Line} (h : ∀ r ∈ rs, GoodRing (close r)) : ∀ r ∈ orientPolyW rs, GoodRing r := by
  cases rs with
  | nil => simp [orientPolyW]
  | cons r rs =>
    intro q hq
    simp [orientPolyW] at hq
    rcases hq with rfl | ⟨a, ha, rfl⟩
    · exact (h r (by simp)).orientW _
    · exact (h a (by simp [ha])).orientW _

theorem makeMultiPolygon_eq (polys : List (List Line)) (c : Cursor) (hne : ∀ p ∈ polys, p ≠ [])
    (hr : ∀ p ∈ polys, ∀ r ∈ p, r ≠ []) (hl : SmallPt c.last) (hg : ∀ p ∈ polys, ∀ r ∈ p, GoodRing (close r)) :
    ∃ n, makeMultiPolygon c polys = some ⟨c.geometry ++ wordsLines true c.last (polys.flatMap orientPolyW),
      lastLines c.last (polys.flatMap orientPolyW), n⟩ := by
  induction polys generalizing c with
  | nil => exact ⟨c.count, by simp [makeMultiPolygon, wordsLines, lastLines]⟩
  | cons p ps ih =>
    cases p with
    | nil => exact absurd rfl (hne [] (by simp))
    | cons r rs =>
      obtain ⟨n, hn⟩ := makePolygon_eq' c r rs hl (hr _ (by simp)) (hg _ (by simp))
      rw [makeMultiPolygon, hn]
      simp only [Option.bind_some]
      obtain ⟨m, hm⟩ := ih ⟨c.geometry ++ wordsLines true c.last (orientPolyW (r :: rs)), lastLines c.last (orientPolyW (r :: rs)), n⟩
        (fun q hq => hne q (by simp [hq])) (fun q hq => hr q (by simp [hq]))
        (small_lastLines hl fun l hm q hq => (orientPolyW_good (hg _ (by simp)) l hm).2.2.1 q hq q hq |>.1)
        (fun q hq => hg q (by simp [hq]))
      refine ⟨m, ?_⟩
      rw [hm]
      simp only [List.flatMap_cons, wordsLines_append, lastLines_append, List.append_assoc]

theorem cutBefore_flatten {R : Type} (l : List (Bool × R)) : (cutBefore l).1 ++ (cutBefore l).2.flatten = l.map (·.2) := by
  induction l with
  | nil => rfl
  | cons x l ih =>
    obtain ⟨b, r⟩ := x
    cases b
    · simp only [cutBefore, List.cons_append, List.map_cons, ih]
    · simp only [cutBefore, List.nil_append, List.flatten_cons, List.cons_append, List.map_cons, ih]

theorem cutBefore_fst {R : Type} (l : List (Bool × R)) : ∀ r ∈ (cutBefore l).1, (false, r) ∈ l := by
  induction l with
  | nil => simp [cutBefore]
  | cons x l ih =>
    obtain ⟨b, r⟩ := x
    cases b
    · intro q hq
      simp only [cutBefore, List.mem_cons] at hq
      rcases hq with rfl | h
      · simp
      · exact List.mem_cons_of_mem _ (ih q h)
    · simp [cutBefore]

theorem cutBefore_snd {R : Type} (l : List (Bool × R)) : ∀ g ∈ (cutBefore l).2, ∃ r rs, g = r :: rs ∧ (true, r) ∈ l ∧ ∀ q ∈ rs, (false, q) ∈ l := by
  induction l with
  | nil => simp [cutBefore]
  | cons x l ih =>
    obtain ⟨b, r⟩ := x
    cases b
    · intro g hg
      obtain ⟨a, as, h1, h2, h3⟩ := ih g hg
      exact ⟨a, as, h1, List.mem_cons_of_mem _ h2, fun q hq => List.mem_cons_of_mem _ (h3 q hq)⟩
    · intro g hg
      simp only [cutBefore, List.mem_cons] at hg
      rcases hg with rfl | hg
      · exact ⟨r, _, rfl, by simp, fun q hq => List.mem_cons_of_mem _ (cutBefore_fst l q hq)⟩
      · obtain ⟨a, as, h1, h2, h3⟩ := ih g hg
        exact ⟨a, as, h1, List.mem_cons_of_mem _ h2, fun q hq => List.mem_cons_of_mem _ (h3 q hq)⟩

theorem cutBefore_map {R S : Type} (rel : R → S → Prop) (f : Bool → R → S) (hf : ∀ b r, rel r (f b r)) (l : List (Bool × R)) :
    List.Forall₂ rel (cutBefore l).1 (cutBefore (l.map fun x => (x.1, f x.1 x.2))).1 ∧
      List.Forall₂ (List.Forall₂ rel) (cutBefore l).2 (cutBefore (l.map fun x => (x.1, f x.1 x.2))).2 := by
  induction l with
  | nil => exact ⟨.nil, .nil⟩
  | cons x l ih =>
    obtain ⟨b, r⟩ := x
    cases b
    · exact ⟨.cons (hf _ _) ih.1, ih.2⟩
    · exact ⟨.nil, .cons (.cons (hf _ _) ih.1) ih.2⟩

/-- A ring both writers handle exactly (see `C27_polygon_general`): coordinates from -23170 to 23170 will do (`ringInRange_of`), and so will
coordinates from 0 to 32767 (`ringInRange_of_inside`). -/
def RingInRange (r : Line) : Prop :=
  r ≠ [] ∧ ((∀ x ∈ r, |x.1| < 2 ^ 30 ∧ |x.2| < 2 ^ 30) ∧ ∀ x ∈ r, ∀ y ∈ r, |(x.1 - y.1) * (y.2 + x.2)| < 2 ^ 31) ∧ r.length < 2 ^ 22

theorem ringInRange_of {r : Line} (hn : r ≠ []) (h : ∀ x ∈ r, |x.1| ≤ 23170 ∧ |x.2| ≤ 23170) (hl : r.length < 2 ^ 22) : RingInRange r :=
  ⟨hn, ⟨fun x hx => by have := h x hx; constructor <;> omega, fun x hx y hy => fits_23170 (h x hx) (h y hy)⟩, hl⟩

theorem ringInRange_of_inside {r : Line} (hn : r ≠ []) (h : ∀ x ∈ r, (0 ≤ x.1 ∧ x.1 ≤ 32767) ∧ 0 ≤ x.2 ∧ x.2 ≤ 32767)
    (hl : r.length < 2 ^ 22) : RingInRange r := by
  refine ⟨hn, ⟨fun x hx => ?_, fun x hx y hy => ?_⟩, hl⟩
  · have := h x hx
    rw [abs_lt, abs_lt]; omega
  · have h1 := h x hx
    have h2 := h y hy
    have hx : |x.1 - y.1| ≤ 32767 := by rw [abs_le]; omega
    have hy : |y.2 + x.2| ≤ 65534 := by rw [abs_le]; omega
    rw [abs_mul]
    exact lt_of_le_of_lt (mul_le_mul hx hy (abs_nonneg _) (by norm_num)) (by norm_num)

theorem RingInRange.good {r : Line} (h : RingInRange r) : GoodRing (close r) := by
  obtain ⟨hn, hs, hl⟩ := h
  cases r with
  | nil => exact absurd rfl hn
  | cons a l =>
    have hx : ∀ x ∈ close (a :: l), x ∈ a :: l := by
      intro x hx; unfold close at hx; split at hx
      · exact hx
      · simp at hx ⊢; tauto
    have hb : ∀ x ∈ close (a :: l), ∀ y ∈ close (a :: l), AreaPair x y := by
      intro x h y h'
      have h1 := hs.1 x (hx x h)
      have h2 := hs.1 y (hx y h')
      have h3 := hs.2 x (hx x h) y (hx y h')
      rw [abs_lt] at h3
      rw [abs_lt, abs_lt] at h1 h2
      refine ⟨⟨⟨?_, ?_⟩, ?_, ?_⟩, ⟨⟨?_, ?_⟩, ?_, ?_⟩, ?_, ?_⟩
      any_goals omega
      · unfold tm; have := h3.1; norm_num at this; omega
      · unfold tm; have := h3.2; norm_num at this; omega
    refine ⟨?_, ?_, hb, ?_⟩ <;> unfold close <;> split
    · exact hn
    · simp
    · assumption
    · simp [List.getLast?_cons]
    · omega
    · simp at hl ⊢; omega

/-- **C28 is false: the two writers use opposite orientations.** For a polygon whose rings have non-zero area, the rings
`MakePolygonFloat` writes are, ring by ring, the reverse of the rings `MakePolygon` writes (`wordsLines` is the plain
command encoding of closed rings). -/
theorem C28_writers_opposite (r : Line) (rs : List Line) (h : ∀ q ∈ r :: rs, RingInRange q)
    (ha : ∀ q ∈ r :: rs, area2 (close q) ≠ 0) :
    ∃ c c' rings, makePolygon Cursor.new (r :: rs) = some c ∧ makePolygonFloat (fun p : Pt => p) Cursor.new (r :: rs) = some c' ∧
      c.geometry = wordsLines true (0, 0) rings ∧ c'.geometry = wordsLines true (0, 0) (rings.map List.reverse) := by
  have hg : ∀ q ∈ r :: rs, GoodRing (close q) := fun q hq => (h q hq).good
  obtain ⟨c, h1, h2⟩ := makePolygon_eq r rs (fun q hq => (h q hq).1) hg
  have h3 := makePolygonFloat_eq (fun p : Pt => p) Cursor.new (r :: rs) (by simp) (fun q hq => (h q hq).1) (by decide) (by simpa using hg)
  refine ⟨c, _, _, h1, h3, h2, ?_⟩
  have hrev : ∀ o q, area2 q ≠ 0 → orient o q = (orientW o q).reverse := by
    intro o q hq
    unfold orient orientW
    rcases lt_or_gt_of_ne hq with h | h
    · have : ¬ area2 q > 0 := by omega
      cases o <;> simp [h, this]
    · have : ¬ area2 q < 0 := by omega
      cases o <;> simp [h, this]
  simp only [Cursor.new, List.nil_append, List.map_id', orientPoly, List.map_cons]
  congr 1
  rw [hrev true _ (ha r (by simp))]
  congr 1
  simp only [List.map_map]
  refine List.map_congr_left fun q hq => ?_
  simp [hrev false _ (ha q (by simp [hq]))]

/-- **C28 is false: holes written by `MakePolygon` come back as separate polygons.** For every polygon with at least one
hole, whose rings have non-zero area, `LoadGeometry` of what `MakePolygon` wrote is a MultiPolygon with one polygon per ring. -/
theorem C28_holes_become_polygons (r : Line) (rs : List Line) (hrs : rs ≠ []) (h : ∀ q ∈ r :: rs, RingInRange q)
    (ha : ∀ q ∈ r :: rs, area2 (close q) ≠ 0) :
    ∃ c out, makePolygon Cursor.new (r :: rs) = some c ∧ loadGeometry 3 c.geometry = some (.multiPolygon out) ∧
      List.Forall₂ (fun ring poly => ∃ o, poly = [o] ∧ SameRing (close ring) o) (r :: rs) out := by
  have hg : ∀ q ∈ r :: rs, GoodRing (close q) := fun q hq => (h q hq).good
  obtain ⟨c, h1, h2⟩ := makePolygon_eq r rs (fun q hq => (h q hq).1) hg
  let polys : List (List Line) := [orientW true (close r)] :: rs.map fun q => [orientW false (close q)]
  have hflat : orientW true (close r) :: (rs.map close).map (orientW false) = polys.flatten := by
    show _ = orientW true (close r) :: _
    congr 1
    rw [List.map_map]
    clear * -
    induction rs with
    | nil => rfl
    | cons a l ih => simp [ih]
  have hs : ∀ o q, SameRing (close q) (noRepeats (orientW o (close q))) := by
    intro o q; unfold orientW SameRing; split
    · exact Or.inr rfl
    · exact Or.inl rfl
  refine ⟨c, polys.map (List.map noRepeats), h1, ?_, ?_⟩
  · rw [h2, hflat, load_polygons polys]
    · cases rs with
      | nil => exact absurd rfl hrs
      | cons a b => rfl
    · intro p hp
      simp only [polys, List.mem_cons, List.mem_map] at hp
      rcases hp with rfl | ⟨q, _, rfl⟩ <;> simp
    · intro p hp q hq
      simp only [polys, List.mem_cons, List.mem_map] at hp
      rcases hp with rfl | ⟨s, hs', rfl⟩
      · simp at hq; subst hq; exact (hg r (by simp)).orientW _
      · simp at hq; subst hq; exact (hg s (by simp [hs'])).orientW _
    · intro p hp q hq
      simp only [polys, List.tail_cons, List.mem_map] at hp
      obtain ⟨s, hs', rfl⟩ := hp
      simp at hq; subst hq
      rw [area2_orientW]
      simpa using ha s (by simp [hs'])
    · intro p hp q hq
      simp only [polys, List.mem_cons, List.mem_map] at hp
      rcases hp with rfl | ⟨s, hs', rfl⟩ <;> simp at hq
  · simp only [polys, List.map_cons, List.map_map]
    refine .cons ⟨_, rfl, hs _ _⟩ ?_
    clear * - hs
    induction rs with
    | nil => exact .nil
    | cons a l ih => exact .cons ⟨_, rfl, hs _ _⟩ ih

/-- **C28, exactly.** What the reader makes of polygons written with `MakeMultiPolygon` (holes of non-zero area): every
ring comes back, but grouped the wrong way round - each hole begins a polygon of its own, and the outer ring of each polygon
but the first is taken for a hole of the polygon before it. -/
theorem C28_multipolygon_regrouped (polys : List (List Line)) (hne : ∀ p ∈ polys, p ≠ []) (hp0 : polys ≠ [])
    (h : ∀ p ∈ polys, ∀ r ∈ p, RingInRange r) (ha : ∀ p ∈ polys, ∀ r ∈ p.tail, area2 (close r) ≠ 0) :
    ∃ c out, makeMultiPolygon Cursor.new polys = some c ∧ loadGeometry 3 c.geometry = some (asPolygons out) ∧
      List.Forall₂ (List.Forall₂ fun ring o => SameRing (close ring) o) (holesFirst polys) out := by
  obtain ⟨n, hn⟩ := makeMultiPolygon_eq polys Cursor.new hne (fun p hp r hr => (h p hp r hr).1) (by decide)
    (fun p hp r hr => (h p hp r hr).good)
  let f : Bool → Line → Line := fun b r => orientW (!b) (close r)
  let L := flagged polys
  let L' := L.map fun x => (x.1, f x.1 x.2)
  have hsnd : polys.flatMap orientPolyW = L'.map (·.2) := by
    simp only [L', L, flagged, List.map_map, List.map_flatMap]
    apply List.flatMap_congr
    intro p hp
    cases p with
    | nil => rfl
    | cons r rs => simp [orientPolyW, f]
  have hmem : ∀ b r, (b, r) ∈ L → (∃ p ∈ polys, r ∈ p) ∧ (b = true → ∃ p ∈ polys, r ∈ p.tail) := by
    intro b r hx
    simp only [L, flagged, List.mem_flatMap, List.mem_append, List.mem_map] at hx
    obtain ⟨p, hp, ⟨q, hq, e⟩ | ⟨q, hq, e⟩⟩ := hx
    · cases e
      refine ⟨⟨p, hp, ?_⟩, by simp⟩
      simp at hq; exact List.mem_of_mem_head? hq
    · cases e; exact ⟨⟨p, hp, List.mem_of_mem_tail hq⟩, fun _ => ⟨p, hp, hq⟩⟩
  have hgood : ∀ b r, (b, r) ∈ L' → GoodRing r ∧ (b = true → 0 < area2 r) ∧ (b = false → area2 r ≤ 0) := by
    intro b r hx
    obtain ⟨⟨b', q⟩, hq, e⟩ := List.mem_map.mp hx
    cases e
    obtain ⟨⟨p, hp, hqp⟩, ht⟩ := hmem _ _ hq
    refine ⟨((h p hp q hqp).good).orientW _, ?_, ?_⟩
    · intro hb
      simp only at hb; subst hb
      obtain ⟨p', hp', hq'⟩ := ht rfl
      show 0 < area2 (orientW false (close q))
      rw [area2_orientW]; simpa using ha p' hp' q hq'
    · intro hb
      simp only at hb; subst hb
      show area2 (orientW true (close q)) ≤ 0
      rw [area2_orientW]; simp
  have hfst : (cutBefore L').1 ≠ [] := by
    cases polys with
    | nil => exact absurd rfl hp0
    | cons p ps =>
      cases p with
      | nil => exact absurd rfl (hne [] (by simp))
      | cons r rs => simp [L', L, flagged, cutBefore]
  let G := (cutBefore L').1 :: (cutBefore L').2
  have hG : G.flatten = polys.flatMap orientPolyW := by
    rw [hsnd, ← cutBefore_flatten L']; rfl
  refine ⟨_, G.map (List.map noRepeats), hn, ?_, ?_⟩
  · simp only [Cursor.new, List.nil_append]
    rw [← hG, load_polygons G]
    · intro p hp
      simp only [G, List.mem_cons] at hp
      rcases hp with rfl | hp
      · exact hfst
      · obtain ⟨r, rs, e, _⟩ := cutBefore_snd _ _ hp; rw [e]; simp
    · intro p hp r hr
      have : r ∈ L'.map (·.2) := by rw [← cutBefore_flatten L']; exact List.mem_flatten.mpr ⟨p, hp, hr⟩
      obtain ⟨⟨b, q⟩, hq, rfl⟩ := List.mem_map.mp this
      exact (hgood b q hq).1
    · intro p hp r hr
      obtain ⟨a, as, e, h1, _⟩ := cutBefore_snd _ _ hp
      rw [e] at hr; simp at hr; subst hr
      exact (hgood _ _ h1).2.1 rfl
    · intro p hp r hr
      simp only [G, List.mem_cons] at hp
      rcases hp with rfl | hp
      · exact (hgood _ _ (cutBefore_fst _ _ (List.mem_of_mem_tail hr))).2.2 rfl
      · obtain ⟨a, as, e, _, h2⟩ := cutBefore_snd _ _ hp
        rw [e] at hr
        exact (hgood _ _ (h2 r hr)).2.2 rfl
  · have hs : ∀ (b : Bool) (q : Line), SameRing (close q) (noRepeats (f b q)) := by
      intro b q; show SameRing (close q) (noRepeats (orientW _ (close q)))
      unfold orientW SameRing; split
      · exact Or.inr rfl
      · exact Or.inl rfl
    obtain ⟨m1, m2⟩ := cutBefore_map (fun ring o => SameRing (close ring) (noRepeats o)) f hs L
    refine .cons ?_ ?_
    · exact List.forall₂_map_right_iff.mpr m1
    · refine List.forall₂_map_right_iff.mpr (m2.imp fun _ _ h' => List.forall₂_map_right_iff.mpr h')

/-- Two separate squares written by `MakeMultiPolygon` come back as one polygon with a "hole". -/
theorem C28_two_polygons_merge (a b : Line) (h1 : RingInRange a) (h2 : RingInRange b) :
    ∃ c o1 o2, makeMultiPolygon Cursor.new [[a], [b]] = some c ∧ loadGeometry 3 c.geometry = some (.polygon [o1, o2]) ∧
      SameRing (close a) o1 ∧ SameRing (close b) o2 := by
  obtain ⟨c, out, e1, e2, e3⟩ := C28_multipolygon_regrouped [[a], [b]] (by simp) (by simp)
    (by simpa using ⟨h1, h2⟩) (by simp)
  have : holesFirst [[a], [b]] = [[a, b]] := rfl
  rw [this] at e3
  match out, e3 with
  | [[o1, o2]], .cons (.cons r1 (.cons r2 .nil)) .nil => exact ⟨c, o1, o2, e1, e2, r1, r2⟩

example : (makeMultiPolygon Cursor.new [[[(0, 0), (10, 0), (10, 10)], [(2, 1), (4, 1), (4, 3)]], [[(20, 0), (30, 0), (30, 5)]]]).map
      (loadGeometry 3 ·.geometry) =
    some (some (.multiPolygon [[[(0, 0), (10, 10), (10, 0), (0, 0)]],
      [[(2, 1), (4, 1), (4, 3), (2, 1)], [(20, 0), (30, 5), (30, 0), (20, 0)]]])) := by decide

/-- What does hold for `MakePolygon`: a polygon without holes comes back as itself. -/
theorem C28_simple_polygon (r : Line) (h : RingInRange r) :
    ∃ c o, makePolygon Cursor.new [r] = some c ∧ loadGeometry 3 c.geometry = some (.polygon [o]) ∧ SameRing (close r) o := by
  have hg := h.good
  obtain ⟨c, h1, h2⟩ := makePolygon_eq r [] (by simpa using h.1) (by simpa using hg)
  refine ⟨c, noRepeats (orientW true (close r)), h1, ?_, ?_⟩
  · rw [h2]
    have := load_polygons [[orientW true (close r)]] (by simp) (by simpa using hg.orientW _) (by simp) (by simp)
    simpa [asPolygons] using this
  · unfold orientW SameRing; split
    · exact Or.inr rfl
    · exact Or.inl rfl

example : (makePolygon Cursor.new [[(0, 0), (10, 0), (10, 10), (0, 10)], [(2, 2), (4, 2), (4, 4), (2, 4)]]).map
      (loadGeometry 3 ·.geometry) =
    some (some (.multiPolygon [[[(0, 0), (0, 10), (10, 10), (10, 0), (0, 0)]], [[(2, 2), (4, 2), (4, 4), (2, 4), (2, 2)]]])) := by
  decide

end Verif.Mvt
