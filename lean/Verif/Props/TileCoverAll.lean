import Verif.Props.TileCoverSlanted

/-! # C90: `TileCover` of a feature in float64 -/
namespace Verif.CoverF
open Verif.F64 Verif.Tid.Float Verif.Cover
open Verif.Tid (TileID)

theorem polygon_nodup (M : MathLib) (rings : List (List Pt)) (zoom : Nat) (r : List TileID) (h : getTilesPolygon M rings zoom = some r) :
    r.Nodup := by
  have sub : ∀ (pb : Box) (ts r : List TileID), keep M rings pb ts = some r → r.Sublist ts := by
    intro pb ts
    induction ts with
    | nil => intro r h; simp only [keep, Option.some.injEq] at h; rw [← h]
    | cons t ts ih =>
      intro r h
      unfold keep at h
      cases hb : tilePolygon M rings pb t with
      | none => rw [hb] at h; cases h
      | some b =>
        rw [hb] at h
        simp only [Option.map_eq_some_iff] at h
        obtain ⟨r', hr', rfl⟩ := h
        cases b with
        | true => exact (ih r' hr').cons_cons t
        | false => exact (ih r' hr').cons t
  cases rings with
  | nil => cases h
  | cons outer holes =>
    simp only [getTilesPolygon] at h
    exact (sub _ _ _ h).nodup (candidates_nodup _ _ _ (getDif_nodup _ _) (getDif_nodup _ _))

/-- C90: the cover of a MultiLineString is the covers of its lines one after the other, each tile kept where it is first seen. -/
theorem C90_multi_line (M : MathLib) (ord : Nat → Nat → List TileID → List TileID) (ho : ∀ i n l, (ord i n l).Perm l) (zoom : Nat)
    (hz : zoom < 9223372036854775808) (ls : List (List Pt)) (covers : List (List TileID))
    (hl : covers.length = ls.length)
    (h : ∀ i l c, ls[i]? = some l → covers[i]? = some c → tileCover M (fun _ => ord i) zoom (.lineString l) = some c) :
    tileCover M ord zoom (.multiLineString ls) = some covers.flatten.eraseDups := by
  refine mergeParts_eq _ ls covers hl h ?_
  intro c hc
  obtain ⟨i, hi, e⟩ := List.getElem_of_mem hc
  have h1 := h i (ls[i]'(by omega)) c (List.getElem?_eq_getElem _) (by rw [List.getElem?_eq_getElem hi, e])
  cases hls : ls[i]'(by omega) with
  | nil => rw [hls] at h1; cases h1
  | cons p rest =>
    rw [hls] at h1
    obtain ⟨r, hr, hn, -⟩ := C90_line M (ord i) (ho i) p rest zoom hz
    simp only [tileCover] at h1
    rw [hr, Option.some.injEq] at h1
    rw [← h1]
    exact hn

/-- C90: the cover of a MultiPolygon likewise; here the parts are covered without the test for more than three points. -/
theorem C90_multi_polygon (M : MathLib) (ord : Nat → Nat → List TileID → List TileID) (zoom : Nat) (ps : List (List (List Pt)))
    (covers : List (List TileID)) (hl : covers.length = ps.length)
    (h : ∀ (i : Nat) p c, ps[i]? = some p → covers[i]? = some c → getTilesPolygon M p zoom = some c) :
    tileCover M ord zoom (.multiPolygon ps) = some covers.flatten.eraseDups := by
  refine mergeParts_eq _ ps covers hl h ?_
  intro c hc
  obtain ⟨i, hi, e⟩ := List.getElem_of_mem hc
  exact polygon_nodup M _ zoom c (h i (ps[i]'(by omega)) c (List.getElem?_eq_getElem _) (by rw [List.getElem?_eq_getElem hi, e]))

/-- C90: a point has the cover of its tile; a polygon whose outer ring has at most three points has none; a MultiPoint is covered
as the line of the field LineString, whatever its points are, and panics when that is empty; a part without points makes the
whole call panic. -/
theorem C90_simple (M : MathLib) (ord : Nat → Nat → List TileID → List TileID) (zoom : Nat) :
    (∀ p : Pt, tileCover M ord zoom (.point p) = some [tile M p.1 p.2 zoom]) ∧
    (∀ outer holes, outer.length ≤ 3 → tileCover M ord zoom (.polygon (outer :: holes)) = some []) ∧
    (∀ ps, tileCover M ord zoom (.multiPoint ps []) = none) ∧
    (∀ ls : List (List Pt), [] ∈ ls → tileCover M ord zoom (.multiLineString ls) = none) ∧
    (∀ ps : List (List (List Pt)), [] ∈ ps → tileCover M ord zoom (.multiPolygon ps) = none) := by
  refine ⟨fun _ => rfl, fun outer holes h => ?_, fun _ => rfl, fun ls h => ?_, fun ps h => ?_⟩
  · show (if outer.length > 3 then _ else _) = _
    rw [if_neg (by omega)]
  · obtain ⟨i, hi, e⟩ := List.getElem_of_mem h
    exact mergeParts_panics _ ls 0 [] i [] (by rw [List.getElem?_eq_getElem hi, e]) rfl
  · obtain ⟨i, hi, e⟩ := List.getElem_of_mem h
    exact mergeParts_panics _ ps 0 [] i [] (by rw [List.getElem?_eq_getElem hi, e]) rfl

/-- a case that meets the hypotheses: two lines with a tile in common -/
theorem C90_multi_example (M : MathLib) (ord : Nat → Nat → List TileID → List TileID) (ho : ∀ i n l, (ord i n l).Perm l) :
    ∃ a b, tileCover M (fun _ => ord 0) 2 (.lineString [(-100, 10), (100, 10)]) = some a ∧
      tileCover M (fun _ => ord 1) 2 (.lineString [(100, 10), (100, 20)]) = some b ∧
      tileCover M ord 2 (.multiLineString [[(-100, 10), (100, 10)], [(100, 10), (100, 20)]]) = some (a ++ b).eraseDups ∧
      tile M 100 10 (2 : Nat) ∈ a ∧ tile M 100 10 (2 : Nat) ∈ b := by
  obtain ⟨a, ha, -, -, -, va⟩ := C90_line M (ord 0) (ho 0) (-100, 10) [(100, 10)] 2 (by norm_num)
  obtain ⟨b, hb, -, -, -, vb⟩ := C90_line M (ord 1) (ho 1) (100, 10) [(100, 20)] 2 (by norm_num)
  refine ⟨a, b, ha, hb, ?_, va (100, 10) (by simp), vb (100, 10) (by simp)⟩
  have := C90_multi_line M ord ho 2 (by norm_num) [[(-100, 10), (100, 10)], [(100, 10), (100, 20)]] [a, b] rfl (by
    intro i l c h1 h2
    match i with
    | 0 => simp at h1 h2; subst h1 h2; exact ha
    | 1 => simp at h1 h2; subst h1 h2; exact hb
    | n + 2 => simp at h1)
  simpa using this

end Verif.CoverF
