import Verif.Proof.StyleParse
import Verif.Props.StyleColor
import Verif.Props.StyleFilter

/-!
# C69: parsing a style

`parseStyle` is `Parse`, `decodeStyle` its first step, the decoding of the document (`calculateBackgroundColor` is the second).
`rnd` is the rounding of float64 operations, `imp` the alpha byte picked where Go leaves it to the implementation.
-/
namespace Verif.Style

/-- Unfold a successful step of decoding. -/
theorem ptr_inv {α σ : Type} {g : Json → Except Fail α} {nul : σ} {put : α → σ} {j : Json} {s : σ}
    (h : ptrField g nul put j = .ok (s, false)) : (j = .null ∧ s = nul) ∨ (j ≠ .null ∧ ∃ c, g j = .ok c ∧ s = put c) := by
  unfold ptrField at h
  split at h
  · simp only [Except.ok.injEq, Prod.mk.injEq, and_true] at h
    exact .inl ⟨rfl, h.symm⟩
  · rename_i hj
    split at h
    · cases h
    · rename_i c hc
      simp only [Except.ok.injEq, Prod.mk.injEq, and_true] at h
      exact .inr ⟨hj, c, hc, h.symm⟩

theorem struct_inv {σ τ : Type} {names : List String} {f : String → Json → σ → Dec σ} {z : σ} {nul bad : τ} {put : σ → τ} {j : Json} {t : τ}
    (h : structField names f z nul bad put j = .ok (t, false)) :
    (j = .null ∧ t = nul) ∨ (∃ fs s, j = .obj fs ∧ decFields f (renamed names fs) z = .ok (s, false) ∧ t = put s) := by
  unfold structField at h
  split at h
  · simp only [Except.ok.injEq, Prod.mk.injEq, and_true] at h
    exact .inl ⟨rfl, h.symm⟩
  · split at h
    · cases h
    · rename_i hc
      simp only [Except.ok.injEq, Prod.mk.injEq] at h
      obtain ⟨rfl, rfl⟩ := h
      exact .inr ⟨_, _, rfl, hc, rfl⟩
  · simp at h

theorem member_none {k : String} {fs : List (String × Json)} (h : given k fs = none) : member k fs = .null := by
  simp [member, h]

theorem member_some {k : String} {fs : List (String × Json)} {j : Json} (h : given k fs = some j) : member k fs = j := by
  simp [member, h]

theorem strField_inv {old s : String} {j : Json} (h : strField old j = (s, false)) : j = .str s ∨ j = .null ∧ s = old := by
  cases j <;> simp_all [strField]

theorem optNum_inv {old q : Option ℚ} {j : Json} (h : optNumField old j = (q, false)) : MeansOptNum j q := by
  cases j <;> simp_all [optNumField, MeansOptNum]

theorem pair_false {α : Type} {r : α × Bool} (h : r.2 = false) : r = (r.1, false) := by rw [← h]

/-! ## Numbers -/

theorem numFn_stops {j : Json} {s s' : List (NumStop ℚ) × Option ℚ} (h : numFnField "stops" j s = .ok (s', false)) :
    MeansStops j s'.1 := by
  unfold numFnField at h
  rw [if_pos rfl] at h
  cases j with
  | arr l =>
    simp only at h
    split at h
    · cases h
    · rename_i l' b hl
      simp only [Except.ok.injEq, Prod.mk.injEq] at h
      obtain ⟨rfl, rfl⟩ := h
      refine .inl ⟨l, rfl, (decElems_forall hl).imp ?_⟩
      intro j a ha
      cases hn : numStop j with
      | error e => rw [hn] at ha; cases ha
      | ok c =>
        rw [hn] at ha
        simp only [Except.map, Except.ok.injEq, Prod.mk.injEq, and_true] at ha
        subst ha
        exact numStop_ok.1 hn
  | null =>
    simp only [Except.ok.injEq, Prod.mk.injEq, and_true] at h
    subst h; exact .inr ⟨rfl, rfl⟩
  | _ => simp at h

theorem numFn_base {j : Json} {s s' : List (NumStop ℚ) × Option ℚ} (h : numFnField "base" j s = .ok (s', false)) :
    MeansOptNum j s'.2 := by
  unfold numFnField at h
  rw [if_neg (by decide), if_pos rfl] at h
  simp only [Except.ok.injEq, Prod.mk.injEq] at h
  obtain ⟨rfl, h2⟩ := h
  exact optNum_inv (pair_false h2)

theorem numFn_ind1 (k : String) (j : Json) (s s1 : List (NumStop ℚ) × Option ℚ) (hk : k ≠ "stops")
    (h : numFnField k j s = .ok (s1, false)) : s1.1 = s.1 := by
  unfold numFnField at h
  rw [if_neg hk] at h
  split at h
  · simp only [Except.ok.injEq, Prod.mk.injEq] at h
    rw [← h.1]
  · split at h <;>
    · simp only [Except.ok.injEq, Prod.mk.injEq] at h
      rw [← h.1]

theorem numFn_ind2 (k : String) (j : Json) (s s1 : List (NumStop ℚ) × Option ℚ) (hk : k ≠ "base")
    (h : numFnField k j s = .ok (s1, false)) : s1.2 = s.2 := by
  unfold numFnField at h
  split at h
  · split at h
    · split at h
      · cases h
      · simp only [Except.ok.injEq, Prod.mk.injEq] at h
        rw [← h.1]
    · simp only [Except.ok.injEq, Prod.mk.injEq] at h
      rw [← h.1]
    · simp at h
  · split at h <;>
    · simp only [Except.ok.injEq, Prod.mk.injEq] at h
      rw [← h.1]

theorem numberOf_means {j : Json} {p : NumProp ℚ} (h : numberOf j = .ok p) : MeansNumber j p := by
  cases j with
  | num q =>
    simp only [numberOf, Except.ok.injEq] at h
    subst h; exact ⟨q, rfl, rfl⟩
  | obj fs =>
    simp only [numberOf] at h
    split at h
    · cases h
    cases hf : finish (decFields numFnField (renamed numFnNames fs) ([], none)) with
    | error e => rw [hf] at h; cases h
    | ok s =>
      rw [hf] at h
      simp only [Except.map, Except.ok.injEq] at h
      subst h
      rw [finish_ok] at hf
      refine ⟨fs, rfl, fun hd => ⟨?_, ?_⟩⟩
      · rcases fields_slot numFnNames_ok (by decide) numFn_ind1 hd hf with ⟨e1, e2⟩ | ⟨j, s0, s1, e1, _, e3, e4⟩
        · rw [member_none e1, e2]; exact .inr ⟨rfl, rfl⟩
        · rw [member_some e1, e4]; exact numFn_stops e3
      · rcases fields_slot numFnNames_ok (by decide) numFn_ind2 hd hf with ⟨e1, e2⟩ | ⟨j, s0, s1, e1, _, e3, e4⟩
        · rw [member_none e1, e2]; exact .inr ⟨rfl, rfl⟩
        · rw [member_some e1, e4]; exact numFn_base e3
  | _ => simp only [numberOf] at h; split at h <;> cases h

/-! ## Colours -/

variable {rnd : ℚ → ℚ} {imp : Nat}

theorem colFn_stops {j : Json} {s s' : List (Option (ColStop ℚ)) × Option ℚ}
    (h : colFnField rnd imp "stops" j s = .ok (s', false)) : MeansColStops rnd imp j s'.1 := by
  unfold colFnField at h
  rw [if_pos rfl] at h
  cases j with
  | arr l =>
    simp only at h
    split at h
    · cases h
    · rename_i l' b hl
      simp only [Except.ok.injEq, Prod.mk.injEq] at h
      obtain ⟨rfl, rfl⟩ := h
      exact .inl ⟨l, rfl, (decElems_forall hl).imp fun j a ha => colElem_ok.1 ha⟩
  | null =>
    simp only [Except.ok.injEq, Prod.mk.injEq, and_true] at h
    subst h; exact .inr ⟨rfl, rfl⟩
  | _ => simp at h

theorem colFn_base {j : Json} {s s' : List (Option (ColStop ℚ)) × Option ℚ}
    (h : colFnField rnd imp "base" j s = .ok (s', false)) : MeansOptNum j s'.2 := by
  unfold colFnField at h
  rw [if_neg (by decide), if_pos rfl] at h
  simp only [Except.ok.injEq, Prod.mk.injEq] at h
  obtain ⟨rfl, h2⟩ := h
  exact optNum_inv (pair_false h2)

theorem colFn_ind1 (k : String) (j : Json) (s s1 : List (Option (ColStop ℚ)) × Option ℚ) (hk : k ≠ "stops")
    (h : colFnField rnd imp k j s = .ok (s1, false)) : s1.1 = s.1 := by
  unfold colFnField at h
  rw [if_neg hk] at h
  split at h <;>
  · simp only [Except.ok.injEq, Prod.mk.injEq] at h
    rw [← h.1]

theorem colFn_ind2 (k : String) (j : Json) (s s1 : List (Option (ColStop ℚ)) × Option ℚ) (hk : k ≠ "base")
    (h : colFnField rnd imp k j s = .ok (s1, false)) : s1.2 = s.2 := by
  unfold colFnField at h
  split at h
  · split at h
    · split at h
      · cases h
      · simp only [Except.ok.injEq, Prod.mk.injEq] at h
        rw [← h.1]
    · simp only [Except.ok.injEq, Prod.mk.injEq] at h
      rw [← h.1]
    · simp at h
  · simp only [Except.ok.injEq, Prod.mk.injEq] at h
    rw [← h.1]

theorem colourOf_means {j : Json} {p : ColVal} (h : colourOf rnd imp j = .ok p) : MeansColour rnd imp j p := by
  cases j with
  | str s =>
    simp only [colourOf] at h
    cases hc : strToColor rnd s.toList 255 with
    | error e => rw [hc] at h; cases h
    | ok c =>
      rw [hc] at h
      simp only [Except.map, Except.ok.injEq] at h
      subst h; exact ⟨s, c, rfl, hc, rfl⟩
  | obj fs =>
    simp only [colourOf] at h
    split at h
    · cases h
    cases hf : finish (decFields (colFnField rnd imp) (renamed colFnNames fs) ([], none)) with
    | error e => rw [hf] at h; cases h
    | ok s =>
      rw [hf] at h
      simp only [Except.map, Except.ok.injEq] at h
      subst h
      rw [finish_ok] at hf
      refine ⟨fs, rfl, fun hd => ⟨?_, ?_⟩⟩
      · rcases fields_slot colFnNames_ok (by decide) colFn_ind1 hd hf with ⟨e1, e2⟩ | ⟨j, s0, s1, e1, _, e3, e4⟩
        · rw [member_none e1, e2]; exact .inr ⟨rfl, rfl⟩
        · rw [member_some e1, e4]; exact colFn_stops e3
      · rcases fields_slot colFnNames_ok (by decide) colFn_ind2 hd hf with ⟨e1, e2⟩ | ⟨j, s0, s1, e1, _, e3, e4⟩
        · rw [member_none e1, e2]; exact .inr ⟨rfl, rfl⟩
        · rw [member_some e1, e4]; exact colFn_base e3
  | _ => simp only [colourOf] at h; split at h <;> cases h

/-! ## Paint, layout -/

theorem paint_ind1 (c : String) (k : String) (j : Json) (s s1 : Paint) (hk : k ≠ c)
    (h : paintField rnd imp k j s = .ok (s1, false)) : s1.colour c = s.colour c := by
  unfold paintField at h
  split at h
  · rcases ptr_inv h with ⟨_, rfl⟩ | ⟨_, _, _, rfl⟩ <;> exact Function.update_of_ne (Ne.symm hk) _ _
  · split at h
    · rcases ptr_inv h with ⟨_, rfl⟩ | ⟨_, _, _, rfl⟩ <;> rfl
    · simp only [Except.ok.injEq, Prod.mk.injEq] at h
      rw [← h.1]

theorem paint_ind2 (c : String) (k : String) (j : Json) (s s1 : Paint) (hk : k ≠ c)
    (h : paintField rnd imp k j s = .ok (s1, false)) : s1.number c = s.number c := by
  unfold paintField at h
  split at h
  · rcases ptr_inv h with ⟨_, rfl⟩ | ⟨_, _, _, rfl⟩ <;> rfl
  · split at h
    · rcases ptr_inv h with ⟨_, rfl⟩ | ⟨_, _, _, rfl⟩ <;> exact Function.update_of_ne (Ne.symm hk) _ _
    · simp only [Except.ok.injEq, Prod.mk.injEq] at h
      rw [← h.1]

theorem paint_means {fs : List (String × Json)} {p : Paint} (h : decFields (paintField rnd imp) (renamed paintNames fs) .zero = .ok (p, false)) :
    MeansPaint rnd imp fs p := by
  intro hd
  refine ⟨fun k hk => ?_, fun k hk => ?_⟩
  · rcases fields_slot (π := fun p : Paint => p.colour k) paintNames_ok (by revert k; decide) (paint_ind1 k) hd h with ⟨e1, e2⟩ | ⟨j, s0, s1, e1, _, e3, e4⟩
    · rw [member_none e1, e2]; rfl
    · rw [member_some e1, e4]
      unfold paintField at e3
      rw [if_pos (show k ∈ colourNames from hk)] at e3
      rcases ptr_inv e3 with ⟨rfl, rfl⟩ | ⟨_, c, hc, rfl⟩
      · simp only [Function.update_self]; rfl
      · simp only [Function.update_self]; exact colourOf_means hc
  · rcases fields_slot (π := fun p : Paint => p.number k) paintNames_ok (by revert k; decide) (paint_ind2 k) hd h with ⟨e1, e2⟩ | ⟨j, s0, s1, e1, _, e3, e4⟩
    · rw [member_none e1, e2]; rfl
    · rw [member_some e1, e4]
      unfold paintField at e3
      have hn : k ∉ colourNames := by
        simp only [List.mem_cons, List.not_mem_nil, or_false] at hk
        rcases hk with rfl | rfl | rfl | rfl <;> decide
      rw [if_neg hn, if_pos (show k ∈ numberNames from hk)] at e3
      rcases ptr_inv e3 with ⟨rfl, rfl⟩ | ⟨_, c, hc, rfl⟩
      · simp only [Function.update_self]; rfl
      · simp only [Function.update_self]; exact numberOf_means hc

theorem layout_ind (c : String) (k : String) (j : Json) (s s1 : String → NumProp ℚ) (hk : k ≠ c)
    (h : layoutField k j s = .ok (s1, false)) : s1 c = s c := by
  unfold layoutField at h
  split at h
  · rcases ptr_inv h with ⟨_, rfl⟩ | ⟨_, _, _, rfl⟩ <;> exact Function.update_of_ne (Ne.symm hk) _ _
  · simp only [Except.ok.injEq, Prod.mk.injEq] at h
    rw [← h.1]

theorem layout_means {fs : List (String × Json)} {p : String → NumProp ℚ}
    (h : decFields layoutField (renamed layoutNames fs) (fun _ => .absent) = .ok (p, false)) (hd : Distinct fs) :
    ∀ k ∈ ["text-size", "icon-size"], MeansNumber (member k fs) (p k) := by
  intro k hk
  rcases fields_slot (π := fun p : String → NumProp ℚ => p k) layoutNames_ok (by revert k; decide) (layout_ind k) hd h with ⟨e1, e2⟩ | ⟨j, s0, s1, e1, _, e3, e4⟩
  · rw [member_none e1, e2]; rfl
  · rw [member_some e1, e4]
    unfold layoutField at e3
    rw [if_pos (show k = "text-size" ∨ k = "icon-size" by simpa using hk)] at e3
    rcases ptr_inv e3 with ⟨rfl, rfl⟩ | ⟨_, c, hc, rfl⟩
    · rw [Function.update_self]; rfl
    · rw [Function.update_self]; exact numberOf_means hc

/-! ## Layers -/

/-- Each key of a layer writes one field. -/
theorem layer_ind (k : String) (j : Json) (s s1 : LayerDoc) (h : layerField rnd imp k j s = .ok (s1, false)) :
    (k ≠ "filter" → s1.filter = s.filter) ∧ (k ≠ "id" → s1.id = s.id) ∧ (k ≠ "minzoom" → s1.minZoom = s.minZoom) ∧
    (k ≠ "maxzoom" → s1.maxZoom = s.maxZoom) ∧ (k ≠ "paint" → s1.paint = s.paint) ∧ (k ≠ "layout" → s1.layout = s.layout) ∧
    (k ≠ "source" → s1.source = s.source) ∧ (k ≠ "source-layer" → s1.sourceLayer = s.sourceLayer) ∧
    (k ≠ "type" → s1.type = s.type) := by
  unfold layerField at h
  by_cases h1 : k = "filter"
  · rw [if_pos h1] at h
    split at h
    · cases h
    · simp only [Except.ok.injEq, Prod.mk.injEq, and_true] at h
      subst h; simp [h1]
  rw [if_neg h1] at h
  by_cases h2 : k = "id"
  · rw [if_pos h2] at h
    simp only [Except.ok.injEq, Prod.mk.injEq] at h
    obtain ⟨rfl, _⟩ := h; simp [h2]
  rw [if_neg h2] at h
  by_cases h3 : k = "minzoom"
  · rw [if_pos h3] at h
    simp only [Except.ok.injEq, Prod.mk.injEq] at h
    obtain ⟨rfl, _⟩ := h; simp [h3]
  rw [if_neg h3] at h
  by_cases h4 : k = "maxzoom"
  · rw [if_pos h4] at h
    simp only [Except.ok.injEq, Prod.mk.injEq] at h
    obtain ⟨rfl, _⟩ := h; simp [h4]
  rw [if_neg h4] at h
  by_cases h5 : k = "paint"
  · rw [if_pos h5] at h
    rcases struct_inv h with ⟨_, rfl⟩ | ⟨_, _, _, _, rfl⟩ <;> simp [h5]
  rw [if_neg h5] at h
  by_cases h6 : k = "layout"
  · rw [if_pos h6] at h
    rcases struct_inv h with ⟨_, rfl⟩ | ⟨_, _, _, _, rfl⟩ <;> simp [h6]
  rw [if_neg h6] at h
  by_cases h7 : k = "source"
  · rw [if_pos h7] at h
    simp only [Except.ok.injEq, Prod.mk.injEq] at h
    obtain ⟨rfl, _⟩ := h; simp [h7]
  rw [if_neg h7] at h
  by_cases h8 : k = "source-layer"
  · rw [if_pos h8] at h
    simp only [Except.ok.injEq, Prod.mk.injEq] at h
    obtain ⟨rfl, _⟩ := h; simp [h8]
  rw [if_neg h8] at h
  by_cases h9 : k = "type"
  · rw [if_pos h9] at h
    simp only [Except.ok.injEq, Prod.mk.injEq] at h
    obtain ⟨rfl, _⟩ := h; simp [h9]
  rw [if_neg h9] at h
  split at h
  · simp only [Except.ok.injEq, Prod.mk.injEq] at h
    rw [← h.1]; simp
  · simp only [Except.ok.injEq, Prod.mk.injEq] at h
    rw [← h.1]; simp

theorem layer_str {fs : List (String × Json)} {l : LayerDoc} (hd : Distinct fs)
    (h : decFields (layerField rnd imp) (renamed layerNames fs) {} = .ok (l, false)) (k : String) (hk : k ∈ layerNames) (π : LayerDoc → String) (h0 : π {} = "")
    (hind : ∀ k' j s s1, k' ≠ k → layerField rnd imp k' j s = .ok (s1, false) → π s1 = π s)
    (hset : ∀ j s s1, layerField rnd imp k j s = .ok (s1, false) → strField (π s) j = (π s1, false)) :
    MeansStr (member k fs) (π l) := by
  rcases fields_slot layerNames_ok hk hind hd h with ⟨e1, e2⟩ | ⟨j, s0, s1, e1, e2, e3, e4⟩
  · rw [member_none e1, e2, h0]; exact .inr ⟨rfl, rfl⟩
  · rw [member_some e1, e4]
    have := hset j s0 s1 e3
    rw [e2, h0] at this
    exact strField_inv this

theorem layer_num {fs : List (String × Json)} {l : LayerDoc} (hd : Distinct fs)
    (h : decFields (layerField rnd imp) (renamed layerNames fs) {} = .ok (l, false)) (k : String) (hk : k ∈ layerNames) (π : LayerDoc → Option ℚ) (h0 : π {} = none)
    (hind : ∀ k' j s s1, k' ≠ k → layerField rnd imp k' j s = .ok (s1, false) → π s1 = π s)
    (hset : ∀ j s s1, layerField rnd imp k j s = .ok (s1, false) → optNumField (π s) j = (π s1, false)) :
    MeansOptNum (member k fs) (π l) := by
  rcases fields_slot layerNames_ok hk hind hd h with ⟨e1, e2⟩ | ⟨j, s0, s1, e1, e2, e3, e4⟩
  · rw [member_none e1, e2, h0]; exact .inr ⟨rfl, rfl⟩
  · rw [member_some e1, e4]
    exact optNum_inv (hset j s0 s1 e3)

theorem layer_means {fs : List (String × Json)} {l : LayerDoc}
    (h : decFields (layerField rnd imp) (renamed layerNames fs) {} = .ok (l, false)) : MeansLayer rnd imp fs l := by
  intro hd
  refine ⟨?_, ?_, ?_, ?_, ?_, ?_, ?_, ?_, ?_, ?_⟩
  · refine layer_str hd h "id" (by decide) LayerDoc.id rfl (fun k' j s s1 hk h => (layer_ind k' j s s1 h).2.1 hk) fun j s s1 h => ?_
    simp only [layerField, String.reduceEq, if_false, if_true, Except.ok.injEq, Prod.mk.injEq] at h
    rw [← h.1]; exact pair_false h.2
  · refine layer_str hd h "source" (by decide) LayerDoc.source rfl
      (fun k' j s s1 hk h => (layer_ind k' j s s1 h).2.2.2.2.2.2.1 hk) fun j s s1 h => ?_
    simp only [layerField, String.reduceEq, if_false, if_true, Except.ok.injEq, Prod.mk.injEq] at h
    rw [← h.1]; exact pair_false h.2
  · refine layer_str hd h "source-layer" (by decide) LayerDoc.sourceLayer rfl
      (fun k' j s s1 hk h => (layer_ind k' j s s1 h).2.2.2.2.2.2.2.1 hk) fun j s s1 h => ?_
    simp only [layerField, String.reduceEq, if_false, if_true, Except.ok.injEq, Prod.mk.injEq] at h
    rw [← h.1]; exact pair_false h.2
  · refine layer_str hd h "type" (by decide) LayerDoc.type rfl
      (fun k' j s s1 hk h => (layer_ind k' j s s1 h).2.2.2.2.2.2.2.2 hk) fun j s s1 h => ?_
    simp only [layerField, String.reduceEq, if_false, if_true, Except.ok.injEq, Prod.mk.injEq] at h
    rw [← h.1]; exact pair_false h.2
  · refine layer_num hd h "minzoom" (by decide) LayerDoc.minZoom rfl
      (fun k' j s s1 hk h => (layer_ind k' j s s1 h).2.2.1 hk) fun j s s1 h => ?_
    simp only [layerField, String.reduceEq, if_false, if_true, Except.ok.injEq, Prod.mk.injEq] at h
    rw [← h.1]; exact pair_false h.2
  · refine layer_num hd h "maxzoom" (by decide) LayerDoc.maxZoom rfl
      (fun k' j s s1 hk h => (layer_ind k' j s s1 h).2.2.2.1 hk) fun j s s1 h => ?_
    simp only [layerField, String.reduceEq, if_false, if_true, Except.ok.injEq, Prod.mk.injEq] at h
    rw [← h.1]; exact pair_false h.2
  · intro f hf
    rcases fields_slot (π := LayerDoc.filter) (k := "filter") layerNames_ok (by decide) (fun k' j s s1 hk h => (layer_ind k' j s s1 h).1 hk) hd h with
      ⟨e1, e2⟩ | ⟨j, s0, s1, e1, e2, e3, e4⟩
    · rw [e2] at hf; cases hf
    · rw [member_some e1]
      rw [e4] at hf
      unfold layerField at e3
      rw [if_pos rfl] at e3
      split at e3
      · cases e3
      · rename_i f' hf'
        simp only [Except.ok.injEq, Prod.mk.injEq, and_true] at e3
        rw [← e3] at hf
        simp only [Option.some.injEq] at hf
        rw [hf', hf]
  · intro hf
    rcases fields_slot (π := LayerDoc.filter) (k := "filter") layerNames_ok (by decide) (fun k' j s s1 hk h => (layer_ind k' j s s1 h).1 hk) hd h with
      ⟨e1, e2⟩ | ⟨j, s0, s1, e1, e2, e3, e4⟩
    · exact e1
    · rw [e4] at hf
      unfold layerField at e3
      rw [if_pos rfl] at e3
      split at e3
      · cases e3
      · simp only [Except.ok.injEq, Prod.mk.injEq, and_true] at e3
        rw [← e3] at hf
        cases hf
  · rcases fields_slot (π := LayerDoc.paint) (k := "paint") layerNames_ok (by decide)
      (fun k' j s s1 hk h => (layer_ind k' j s s1 h).2.2.2.2.1 hk) hd h with
      ⟨e1, e2⟩ | ⟨j, s0, s1, e1, e2, e3, e4⟩
    · rw [e2]; exact member_none e1
    · rw [e4, member_some e1]
      simp only [layerField, String.reduceEq, if_false, if_true] at e3
      rcases struct_inv e3 with ⟨rfl, rfl⟩ | ⟨ps, p, rfl, hp, rfl⟩
      · rfl
      · rw [e2] at hp
        exact ⟨ps, rfl, paint_means hp⟩
  · rcases fields_slot (π := LayerDoc.layout) (k := "layout") layerNames_ok (by decide)
      (fun k' j s s1 hk h => (layer_ind k' j s s1 h).2.2.2.2.2.1 hk) hd h with
      ⟨e1, e2⟩ | ⟨j, s0, s1, e1, e2, e3, e4⟩
    · exact .inl ⟨member_none e1, fun k => by rw [e2]⟩
    · rw [e4, member_some e1]
      simp only [layerField, String.reduceEq, if_false, if_true] at e3
      rcases struct_inv e3 with ⟨rfl, rfl⟩ | ⟨ps, p, rfl, hp, rfl⟩
      · exact .inl ⟨rfl, fun k => by rw [e2]⟩
      · rw [e2] at hp
        exact .inr ⟨ps, rfl, fun hd => layout_means hp hd⟩

/-! ## Styles -/

/-- A document is accepted exactly when every member has the shape listed in `FitStyle`; everything else is an error or a panic. -/
theorem C69_accepts (rnd : ℚ → ℚ) (imp : Nat) (j : Json) : (∃ s, decodeStyle rnd imp j = .ok s) ↔ FitStyle rnd j := by
  unfold decodeStyle
  rw [finish_okd, obj_okd styleNames_ok _ _
    (fun k j hk => by simp only [styleNames, List.mem_cons, List.not_mem_nil, or_false, not_or] at hk; simp [hk])
    (styleField_okd rnd imp), FitStyle]

theorem style_ind (k : String) (j : Json) (s s1 : StyleVal) (h : styleField rnd imp k j s = .ok (s1, false)) :
    (k ≠ "layers" → s1.layers = s.layers) ∧ (k ≠ "id" → s1.id = s.id) ∧ (k ≠ "version" → s1.version = s.version) := by
  unfold styleField at h
  by_cases h1 : k = "layers"
  · rw [if_pos h1] at h
    split at h
    · split at h
      · cases h
      · simp only [Except.ok.injEq, Prod.mk.injEq] at h
        rw [← h.1]; simp [h1]
    · simp only [Except.ok.injEq, Prod.mk.injEq] at h
      rw [← h.1]; simp [h1]
    · simp at h
  rw [if_neg h1] at h
  by_cases h2 : k = "id"
  · rw [if_pos h2] at h
    simp only [Except.ok.injEq, Prod.mk.injEq] at h
    rw [← h.1]; simp [h2]
  rw [if_neg h2] at h
  by_cases h3 : k = "version"
  · rw [if_pos h3] at h
    split at h
    · simp only [Except.ok.injEq, Prod.mk.injEq] at h
      rw [← h.1]
      split <;> simp [h3]
    · simp at h
  rw [if_neg h3] at h
  simp only [Except.ok.injEq, Prod.mk.injEq] at h
  rw [← h.1]; simp

/-- What an accepted document turns into: id, version and the layers in order, each with its ids, zooms, filter and paint and layout
properties as written. -/
theorem C69_meaning (rnd : ℚ → ℚ) (imp : Nat) (fs : List (String × Json)) (s : StyleVal)
    (h : decodeStyle rnd imp (.obj fs) = .ok s) : MeansStyle rnd imp fs s := by
  intro hd
  unfold decodeStyle at h
  rw [finish_ok] at h
  rcases struct_inv h with ⟨e, _⟩ | ⟨fs', s', e, h, hs⟩
  · cases e
  cases e
  rw [id] at hs
  subst hs
  refine ⟨?_, ?_, ?_⟩
  · rcases fields_slot (π := StyleVal.id) (k := "id") styleNames_ok (by decide) (fun k' j s s1 hk h => (style_ind k' j s s1 h).2.1 hk) hd h with
      ⟨e1, e2⟩ | ⟨j, s0, s1, e1, e2, e3, e4⟩
    · rw [member_none e1]; exact .inr ⟨rfl, e2⟩
    · rw [member_some e1]
      simp only [styleField, String.reduceEq, if_false, if_true, Except.ok.injEq, Prod.mk.injEq] at e3
      have h5 := strField_inv (pair_false e3.2)
      rw [e2] at h5
      have h6 : (strField s0.id j).1 = s1.id := by rw [← e3.1]
      rw [e2] at h6
      rw [h6, ← e4] at h5
      exact h5
  · rcases fields_slot (π := StyleVal.version) (k := "version") styleNames_ok (by decide) (fun k' j s s1 hk h => (style_ind k' j s s1 h).2.2 hk) hd h with
      ⟨e1, e2⟩ | ⟨j, s0, s1, e1, e2, e3, e4⟩
    · rw [member_none e1]; exact .inr ⟨rfl, e2⟩
    · rw [member_some e1, e4]
      simp only [styleField, String.reduceEq, if_false, if_true] at e3
      split at e3
      · rename_i ht
        simp only [Except.ok.injEq, Prod.mk.injEq, and_true] at e3
        rcases (ty_int j).1 ht with rfl | ⟨q, n, rfl, hn⟩
        · simp only at e3
          rw [← e3]; exact .inr ⟨rfl, e2⟩
        · simp only at e3
          rw [← e3]; left
          refine ⟨q, rfl, ?_⟩
          simp only [hn, Option.getD_some]
      · simp at e3
  · rcases fields_slot (π := StyleVal.layers) (k := "layers") styleNames_ok (by decide) (fun k' j s s1 hk h => (style_ind k' j s s1 h).1 hk) hd h with
      ⟨e1, e2⟩ | ⟨j, s0, s1, e1, e2, e3, e4⟩
    · rw [member_none e1]; exact .inr ⟨rfl, e2⟩
    · rw [member_some e1, e4]
      simp only [styleField, if_true] at e3
      cases j with
      | arr l =>
        simp only at e3
        split at e3
        · cases e3
        · rename_i l' b hl
          simp only [Except.ok.injEq, Prod.mk.injEq] at e3
          obtain ⟨rfl, rfl⟩ := e3
          rw [e2] at hl
          refine .inl ⟨l, rfl, (decOver_nil hl).imp ?_⟩
          intro j a ha
          unfold layerElem at ha
          rcases struct_inv ha with ⟨rfl, rfl⟩ | ⟨ps, p, rfl, hp, rfl⟩
          · rfl
          · exact ⟨ps, rfl, layer_means hp⟩
      | null =>
        simp only [Except.ok.injEq, Prod.mk.injEq, and_true] at e3
        rw [← e3]; exact .inr ⟨rfl, rfl⟩
      | _ => simp at e3

/-! ## Values -/

/-- A property given as a number has that value at every zoom; one given as a function has the value of C50 for the stops in the order
of the document. A property that is missing or null is 0. -/
theorem C69_number_value (A : Arith ℚ) (z : ℚ) (q : Numb) (stops : List (Numb × Numb)) (base : Option Numb) :
    numberOf (.num q) = .ok (.plain q.val) ∧ NumProp.at A z (.plain q.val) = .ok q.val ∧ NumProp.at A z .absent = .ok 0 ∧
    numberOf (.obj [("base", base.elim .null .num), ("stops", .arr (stops.map fun s => .arr [.num s.1, .num s.2]))]) =
      .ok (.fn (stops.map fun s => ⟨s.1.val, s.2.val⟩) (base.map Numb.val)) ∧
    NumProp.at A z (.fn (stops.map fun s => ⟨s.1.val, s.2.val⟩) (base.map Numb.val)) =
      numValue A (stops.map fun s => ⟨s.1.val, s.2.val⟩) (base.map Numb.val) z := by
  refine ⟨rfl, rfl, rfl, ?_, rfl⟩
  have he : ∀ l : List (Numb × Numb), decElems (fun j => (numStop j).map fun a => (a, false))
      (l.map fun s => Json.arr [.num s.1, .num s.2]) = .ok (l.map fun s => ⟨s.1.val, s.2.val⟩, false) := by
    intro l
    induction l with
    | nil => rfl
    | cons s l ih => exact decElems_cons_ok.2 ⟨_, _, rfl, ih, rfl⟩
  have hr : renamed numFnNames [("base", base.elim .null .num), ("stops", .arr (stops.map fun s => Json.arr [.num s.1, .num s.2]))] =
      [("base", base.elim .null .num), ("stops", .arr (stops.map fun s => Json.arr [.num s.1, .num s.2]))] := by
    unfold renamed
    rw [List.map_cons, List.map_cons, canon_eq numFnNames_ok (k := "base") (by decide) rfl,
      canon_eq numFnNames_ok (k := "stops") (by decide) rfl]
    rfl
  simp only [numberOf]
  have h1 : numFnField "base" (base.elim .null .num) ([], none) = .ok (([], base.map Numb.val), false) := by
    cases base <;> rfl
  have h2 : numFnField "stops" (.arr (stops.map fun s => Json.arr [.num s.1, .num s.2])) ([], base.map Numb.val) =
      .ok ((stops.map fun s => ⟨s.1.val, s.2.val⟩, base.map Numb.val), false) := by
    unfold numFnField
    rw [if_pos rfl]
    simp only [he]
  rw [hr]
  have h3 : finish (decFields numFnField [("base", base.elim .null .num), ("stops", .arr (stops.map fun s => Json.arr [.num s.1,
      .num s.2]))] ([], none)) = .ok (stops.map fun s => ⟨s.1.val, s.2.val⟩, base.map Numb.val) :=
    finish_ok.2 (decFields_cons_ok.2 ⟨_, h1, decFields_cons_ok.2 ⟨_, h2, rfl⟩⟩)
  rw [h3]
  have h4 : Json.saneM [("base", base.elim .null .num), ("stops", .arr (stops.map fun s => Json.arr [.num s.1, .num s.2]))] = true := by
    have : ∀ l : List (Numb × Numb), Json.saneL (l.map fun s => Json.arr [.num s.1, .num s.2]) = true := by
      intro l
      induction l with
      | nil => rfl
      | cons s l ih => simp [Json.saneL, Json.sane, ih]
    cases base <;> simp [Json.saneM, Json.sane, this]
  rw [h4]
  rfl

theorem colLoopN_some (A : Arith ℚ) (base : Option ℚ) (z : ℚ) : ∀ (l : List (ColStop ℚ)) (s : ColStop ℚ),
    colLoopN A base z s (l.map some) = colLoop A base z s l
  | [], s => rfl
  | n :: l, s => by
    simp only [List.map_cons, colLoopN, colLoop]
    rw [colLoopN_some A base z l n]

/-- A colour function without null stops has the values of C51; the first null stop it meets is a panic. -/
theorem C69_colour_value (A : Arith ℚ) (z : ℚ) (l : List (ColStop ℚ)) (c : Color ℚ) (base : Option ℚ) :
    ColVal.at A z (.stops (l.map some) base) = colValue A l base z ∧ ColVal.at A z (.plain c) = .ok (.color c) ∧
    ColVal.at A z .absent = .ok (.color .nil) ∧
    (∀ rest, ColVal.at A z (.stops (none :: rest) base) = .error .panic) ∧
    (∀ s rest, ¬ z < s.zoom → ColVal.at A z (.stops (some s :: none :: rest) base) = .error .panic) := by
  refine ⟨?_, rfl, rfl, fun _ => rfl, fun s rest h => ?_⟩
  · cases l with
    | nil => rfl
    | cons s l => simp only [List.map_cons, ColVal.at, colValue, colLoopN_some]
  · simp only [ColVal.at]
    rw [if_neg h]
    rfl

/-- What is not accepted: a property that is a boolean, an array, or a string or number of the wrong kind ends in a panic, and so does a stop
without two entries of the right kinds; a stop that is no array, stops or a base of the wrong kind, and a number beyond float64 anywhere in
the property give an error. -/
theorem C69_rejects (rnd : ℚ → ℚ) (imp : Nat) (s : String) (b : Bool) (q : Numb) (l : List Json) (hl : Json.saneL l = true) :
    numberOf (.str s) = .error .panic ∧ numberOf (.bool b) = .error .panic ∧ numberOf (.arr l) = .error .panic ∧
    colourOf rnd imp (.num q) = .error .panic ∧ colourOf rnd imp (.bool b) = .error .panic ∧
    colourOf rnd imp (.arr l) = .error .panic ∧
    (¬ IsNumStop (.arr l) → numberOf (.obj [("stops", .arr [.arr l])]) = .error .panic) ∧
    numberOf (.obj [("stops", .arr [.str s])]) = .error .err ∧
    numberOf (.obj [("stops", .str s)]) = .error .err ∧ numberOf (.obj [("base", .str s)]) = .error .err ∧
    colourOf rnd imp (.obj [("stops", .str s)]) = .error .err ∧
    (∀ j : Json, j.sane = false → numberOf j = .error .err ∧ colourOf rnd imp j = .error .err) := by
  have hs : Json.sane (.arr l) = true := hl
  refine ⟨rfl, rfl, by simp [numberOf, hs], rfl, rfl, by simp [colourOf, hs], fun h => ?_, ?_, ?_, ?_, ?_, fun j hj => ?_⟩
  rotate_left
  · simp only [numberOf, renamed_one _ numFnNames_ok (show "stops" ∈ numFnNames by decide)]; rfl
  · simp only [numberOf, renamed_one _ numFnNames_ok (show "stops" ∈ numFnNames by decide)]; rfl
  · simp only [numberOf, renamed_one _ numFnNames_ok (show "base" ∈ numFnNames by decide)]; rfl
  · simp only [colourOf, renamed_one _ colFnNames_ok (show "stops" ∈ colFnNames by decide)]; rfl
  · cases j <;> simp_all [Json.sane, numberOf, colourOf]
  have hn : numStop (.arr l) = .error .panic := by
    unfold numStop
    split
    · rename_i z v more e
      exact absurd ⟨z, v, more, e⟩ h
    · rfl
    · rename_i e; cases e
    · rename_i h1 h2 h3
      exact absurd rfl (h2 l)
  simp only [numberOf, renamed_one _ numFnNames_ok (show "stops" ∈ numFnNames by decide), decFields, numFnField, if_true, decElems, hn, Except.map, finish]
  simp [Json.saneM, Json.sane, Json.saneL, hl]

/-- The colour of the light cannot be given: any value but null makes the document an error. -/
theorem C69_light_colour (rnd : ℚ → ℚ) (imp : Nat) (fs ls : List (String × Json)) (k k' : String) (c : Json)
    (h : (k, .obj ls) ∈ fs) (hk : SameName k "light") (hc : (k', c) ∈ ls) (hk' : SameName k' "color") (hn : c ≠ .null) : ¬ ∃ s, decodeStyle rnd imp (.obj fs) = .ok s := by
  rw [C69_accepts]
  rintro (h0 | ⟨fs', e, hf⟩)
  · cases h0
  · cases e
    rcases (hf _ h _ hk).2.2.2.2.2.2.2.2 rfl with h1 | ⟨ls', e, hl⟩
    · cases h1
    · cases e
      exact hn ((hl _ hc _ hk').2.1 rfl)

/-! ## Members given more than once -/

theorem fields_last {σ α : Type} {f : String → Json → σ → Dec σ} {π : σ → α} {names : List String} {k : String} {R : Json → α → Prop}
    (hn : NamesOk names) (hk : k ∈ names)
    (hind : ∀ k' j s s1, k' ≠ k → f k' j s = .ok (s1, false) → π s1 = π s)
    (hset : ∀ j s s1, f k j s = .ok (s1, false) → (j = .null ∧ π s1 = π s) ∨ R j (π s1)) :
    ∀ {fs : List (String × Json)} {s s' : σ}, decFields f (renamed names fs) s = .ok (s', false) →
      (π s' = π s ∧ ∀ p ∈ fs, SameName p.1 k → p.2 = .null) ∨
      ∃ pre p post, fs = pre ++ p :: post ∧ SameName p.1 k ∧ R p.2 (π s') ∧ ∀ q ∈ post, SameName q.1 k → q.2 = .null
  | [], s, s', h => by
    simp only [renamed, List.map_nil, decFields, Except.ok.injEq, Prod.mk.injEq, and_true] at h
    subst h; exact .inl ⟨rfl, by simp⟩
  | (k', j) :: fs, s, s', h => by
    unfold renamed at h
    rw [List.map_cons] at h
    obtain ⟨s1, h1, h2⟩ := decFields_cons_ok.1 h
    rcases fields_last hn hk hind hset h2 with ⟨e, hall⟩ | ⟨pre, p, post, rfl, e1, e2, e3⟩
    · by_cases hs : SameName k' k
      · simp only [canon_eq hn hk hs] at h1
        rcases hset j s s1 h1 with ⟨rfl, e'⟩ | hr
        · refine .inl ⟨e.trans e', ?_⟩
          intro p hp hp'
          rcases List.mem_cons.1 hp with rfl | hp
          · rfl
          · exact hall p hp hp'
        · exact .inr ⟨[], (k', j), fs, rfl, hs, by rw [e]; exact hr, hall⟩
      · have hne : canon names k' ≠ k := fun h => hs (h ▸ canon_same names k')
        refine .inl ⟨e.trans (hind _ j s s1 hne h1), ?_⟩
        intro p hp hp'
        rcases List.mem_cons.1 hp with rfl | hp
        · exact absurd hp' hs
        · exact hall p hp hp'
    · exact .inr ⟨(k', j) :: pre, p, post, rfl, e1, e2, e3⟩

/-- When an accepted document gives its id or its version more than once, also in different case, the last one that is not null
counts. -/
theorem C69_repeated (rnd : ℚ → ℚ) (imp : Nat) (fs : List (String × Json)) (s : StyleVal)
    (h : decodeStyle rnd imp (.obj fs) = .ok s) :
    ((s.id = "" ∧ ∀ p ∈ fs, SameName p.1 "id" → p.2 = .null) ∨
      ∃ pre p post, fs = pre ++ p :: post ∧ SameName p.1 "id" ∧ p.2 = .str s.id ∧ ∀ q ∈ post, SameName q.1 "id" → q.2 = .null) ∧
    ((s.version = 0 ∧ ∀ p ∈ fs, SameName p.1 "version" → p.2 = .null) ∨
      ∃ pre p post, fs = pre ++ p :: post ∧ SameName p.1 "version" ∧ (∃ q, p.2 = .num q ∧ q.int = some s.version) ∧
        ∀ q ∈ post, SameName q.1 "version" → q.2 = .null) := by
  unfold decodeStyle at h
  rw [finish_ok] at h
  rcases struct_inv h with ⟨e, _⟩ | ⟨fs', s', e, h, hs⟩
  · cases e
  cases e
  rw [id] at hs
  subst hs
  constructor
  · refine fields_last (π := StyleVal.id) (R := fun j a => j = .str a) styleNames_ok (by decide)
      (fun k' j s s1 hk h => (style_ind k' j s s1 h).2.1 hk) (fun j s s1 h => ?_) h
    simp only [styleField, String.reduceEq, if_false, if_true, Except.ok.injEq, Prod.mk.injEq] at h
    have h5 := strField_inv (pair_false h.2)
    rw [← h.1]
    tauto
  · refine fields_last (π := StyleVal.version) (R := fun j a => ∃ q, j = .num q ∧ q.int = some a) styleNames_ok (by decide)
      (fun k' j s s1 hk h => (style_ind k' j s s1 h).2.2 hk) (fun j s s1 h => ?_) h
    simp only [styleField, String.reduceEq, if_false, if_true] at h
    split at h
    · rename_i ht
      simp only [Except.ok.injEq, Prod.mk.injEq, and_true] at h
      rcases (ty_int j).1 ht with rfl | ⟨q, n, rfl, hn⟩
      · simp only at h
        rw [← h]; exact .inl ⟨rfl, rfl⟩
      · simp only at h
        rw [← h]
        exact .inr ⟨q, rfl, by simp only [hn, Option.getD_some]⟩
    · simp at h

theorem decFields_append {σ : Type} (f : String → Json → σ → Dec σ) (b : List (String × Json)) : ∀ (a : List (String × Json)) (s : σ),
    decFields f (a ++ b) s = match decFields f a s with
      | .error e => .error e
      | .ok (s1, b1) =>
        match decFields f b s1 with
        | .error e => .error e
        | .ok (s2, b2) => .ok (s2, b1 || b2)
  | [], s => by
    simp only [List.nil_append, decFields, Bool.false_or]
    cases decFields f b s <;> rfl
  | (k, j) :: a, s => by
    simp only [List.cons_append, decFields]
    cases f k j s with
    | error e => rfl
    | ok p =>
      obtain ⟨s1, b1⟩ := p
      simp only
      rw [decFields_append f b a s1]
      cases decFields f a s1 with
      | error e => rfl
      | ok p =>
        obtain ⟨s2, b2⟩ := p
        simp only
        cases decFields f b s2 with
        | error e => rfl
        | ok p => simp only [Bool.or_assoc]

theorem renamed_append (names : List String) (a b : List (String × Json)) : renamed names (a ++ b) = renamed names a ++ renamed names b := by
  simp [renamed]

/-- Replacing two members by one. -/
theorem decFields_two {σ : Type} (f : String → Json → σ → Dec σ) (k : String) (x y z : Json)
    (h : ∀ s, decFields f [(k, x), (k, y)] s = f k z s) (pre post : List (String × Json)) (s : σ) :
    decFields f (pre ++ (k, x) :: (k, y) :: post) s = decFields f (pre ++ (k, z) :: post) s := by
  rw [decFields_append, decFields_append]
  cases decFields f pre s with
  | error e => rfl
  | ok p =>
    obtain ⟨s1, b1⟩ := p
    simp only
    have e1 : (k, x) :: (k, y) :: post = [(k, x), (k, y)] ++ post := rfl
    rw [e1, decFields_append, h]
    rfl

/-- A paint that is given twice in a layer is the one with the members of both; and so is a layout: of the properties in both, the
second counts. -/
theorem C69_repeated_paint (rnd : ℚ → ℚ) (imp : Nat) (old : Option LayerDoc) (pre post a b : List (String × Json)) (k k' : String) :
    (SameName k "paint" → SameName k' "paint" →
      layerElem rnd imp old (.obj (pre ++ (k, .obj a) :: (k', .obj b) :: post)) =
        layerElem rnd imp old (.obj (pre ++ (k, .obj (a ++ b)) :: post))) ∧
    (SameName k "layout" → SameName k' "layout" →
      layerElem rnd imp old (.obj (pre ++ (k, .obj a) :: (k', .obj b) :: post)) =
        layerElem rnd imp old (.obj (pre ++ (k, .obj (a ++ b)) :: post))) := by
  constructor
  · intro h1 h2
    unfold layerElem structField
    simp only [renamed_append]
    have e : ∀ (z : Json) (l : List (String × Json)), renamed layerNames ((k, z) :: l) = ("paint", z) :: renamed layerNames l := by
      intro z l
      unfold renamed
      rw [List.map_cons, canon_eq layerNames_ok (by decide) h1]
    have e' : ∀ (z : Json) (l : List (String × Json)), renamed layerNames ((k', z) :: l) = ("paint", z) :: renamed layerNames l := by
      intro z l
      unfold renamed
      rw [List.map_cons, canon_eq layerNames_ok (by decide) h2]
    rw [e, e', e, decFields_two _ "paint" (.obj a) (.obj b) (.obj (a ++ b))]
    intro s
    simp only [decFields, layerField, String.reduceEq, if_false, if_true, structField, renamed_append, decFields_append]
    cases decFields (paintField rnd imp) (renamed paintNames a) (s.paint.getD .zero) with
    | error e => rfl
    | ok p =>
      obtain ⟨s1, b1⟩ := p
      simp only [Option.getD_some]
      cases decFields (paintField rnd imp) (renamed paintNames b) s1 with
      | error e => rfl
      | ok p => simp only [Bool.or_false]
  · intro h1 h2
    unfold layerElem structField
    simp only [renamed_append]
    have e : ∀ (z : Json) (l : List (String × Json)), renamed layerNames ((k, z) :: l) = ("layout", z) :: renamed layerNames l := by
      intro z l
      unfold renamed
      rw [List.map_cons, canon_eq layerNames_ok (by decide) h1]
    have e' : ∀ (z : Json) (l : List (String × Json)), renamed layerNames ((k', z) :: l) = ("layout", z) :: renamed layerNames l := by
      intro z l
      unfold renamed
      rw [List.map_cons, canon_eq layerNames_ok (by decide) h2]
    rw [e, e', e, decFields_two _ "layout" (.obj a) (.obj b) (.obj (a ++ b))]
    intro s
    simp only [decFields, layerField, String.reduceEq, if_false, if_true, structField, renamed_append, decFields_append]
    cases decFields layoutField (renamed layoutNames a) s.layout with
    | error e => rfl
    | ok p =>
      obtain ⟨s1, b1⟩ := p
      simp only
      cases decFields layoutField (renamed layoutNames b) s1 with
      | error e => rfl
      | ok p => simp only [Bool.or_false]

theorem decFields_append_ok {σ : Type} {f : String → Json → σ → Dec σ} {a b : List (String × Json)} {s s' : σ} :
    decFields f (a ++ b) s = .ok (s', false) ↔ ∃ s1, decFields f a s = .ok (s1, false) ∧ decFields f b s1 = .ok (s', false) := by
  rw [decFields_append]
  constructor
  · intro h
    split at h
    · cases h
    · rename_i s1 b1 h1
      split at h
      · cases h
      · rename_i s2 b2 h2
        simp only [Except.ok.injEq, Prod.mk.injEq, Bool.or_eq_false_iff] at h
        obtain ⟨rfl, rfl, rfl⟩ := h
        exact ⟨s1, h1, h2⟩
  · rintro ⟨s1, h1, h2⟩
    rw [h1]
    simp only [h2, Bool.or_false]

theorem layerElem_obj {old l : Option LayerDoc} {fs : List (String × Json)} : layerElem rnd imp old (.obj fs) = .ok (l, false) ↔
    ∃ p, decFields (layerField rnd imp) (renamed layerNames fs) (old.getD {}) = .ok (p, false) ∧ l = some p := by
  unfold layerElem structField
  simp only
  constructor
  · intro h
    split at h
    · cases h
    · rename_i p b hp
      simp only [Except.ok.injEq, Prod.mk.injEq] at h
      obtain ⟨rfl, rfl⟩ := h
      exact ⟨p, hp, rfl⟩
  · rintro ⟨p, hp, rfl⟩
    rw [hp]

theorem layers_over : ∀ (l : List (List (String × Json) × List (String × Json))) (old r : List (Option LayerDoc)),
    (∃ r1, decOver (layerElem rnd imp) none old (l.map fun p => .obj p.1) = .ok (r1, false) ∧
      decOver (layerElem rnd imp) none r1 (l.map fun p => .obj p.2) = .ok (r, false)) ↔
    decOver (layerElem rnd imp) none old (l.map fun p => .obj (p.1 ++ p.2)) = .ok (r, false)
  | [], old, r => by simp [decOver]
  | (a, b) :: l, old, r => by
    simp only [List.map_cons]
    have ih := layers_over l old.tail
    constructor
    · rintro ⟨r1, h1, h2⟩
      obtain ⟨x, xs, hx, hxs, rfl⟩ := decOver_cons_ok.1 h1
      obtain ⟨y, ys, hy, hys, rfl⟩ := decOver_cons_ok.1 h2
      obtain ⟨p, hp, rfl⟩ := layerElem_obj.1 hx
      obtain ⟨q, hq, rfl⟩ := layerElem_obj.1 hy
      refine decOver_cons_ok.2 ⟨some q, ys, layerElem_obj.2 ⟨q, ?_, rfl⟩, (ih ys).1 ⟨xs, hxs, hys⟩, rfl⟩
      rw [renamed_append, decFields_append_ok]
      exact ⟨p, hp, hq⟩
    · intro h
      obtain ⟨y, ys, hy, hys, rfl⟩ := decOver_cons_ok.1 h
      obtain ⟨q, hq, rfl⟩ := layerElem_obj.1 hy
      rw [renamed_append, decFields_append_ok] at hq
      obtain ⟨p, hp, hq⟩ := hq
      obtain ⟨xs, hxs, hys⟩ := (ih ys).2 hys
      exact ⟨some p :: xs, decOver_cons_ok.2 ⟨_, _, layerElem_obj.2 ⟨p, hp, rfl⟩, hxs, rfl⟩,
        decOver_cons_ok.2 ⟨_, _, layerElem_obj.2 ⟨q, hq, rfl⟩, hys, rfl⟩⟩

/-- Layers that are given twice are merged one by one, when they are equally many: each layer gets the members of both. -/
theorem C69_repeated_layers (rnd : ℚ → ℚ) (imp : Nat) (pre post : List (String × Json)) (k k' : String)
    (l : List (List (String × Json) × List (String × Json))) (h1 : SameName k "layers") (h2 : SameName k' "layers") (s : StyleVal) :
    decodeStyle rnd imp (.obj (pre ++ (k, .arr (l.map fun p => .obj p.1)) :: (k', .arr (l.map fun p => .obj p.2)) :: post)) = .ok s ↔
    decodeStyle rnd imp (.obj (pre ++ (k, .arr (l.map fun p => .obj (p.1 ++ p.2))) :: post)) = .ok s := by
  have e : ∀ (z : Json) (m : List (String × Json)), renamed styleNames ((k, z) :: m) = ("layers", z) :: renamed styleNames m := by
    intro z m
    unfold renamed
    rw [List.map_cons, canon_eq styleNames_ok (by decide) h1]
  have e' : ∀ (z : Json) (m : List (String × Json)), renamed styleNames ((k', z) :: m) = ("layers", z) :: renamed styleNames m := by
    intro z m
    unfold renamed
    rw [List.map_cons, canon_eq styleNames_ok (by decide) h2]
  have hf : ∀ (js : List Json) (t t' : StyleVal), styleField rnd imp "layers" (.arr js) t = .ok (t', false) ↔
      ∃ r, decOver (layerElem rnd imp) none t.layers js = .ok (r, false) ∧ t' = { t with layers := r } := by
    intro js t t'
    unfold styleField
    rw [if_pos rfl]
    simp only
    constructor
    · intro h
      split at h
      · cases h
      · rename_i r b hr
        simp only [Except.ok.injEq, Prod.mk.injEq] at h
        obtain ⟨rfl, rfl⟩ := h
        exact ⟨r, hr, rfl⟩
    · rintro ⟨r, hr, rfl⟩
      rw [hr]
  have hd : ∀ fs : List (String × Json), decodeStyle rnd imp (.obj fs) = .ok s ↔
      decFields (styleField rnd imp) (renamed styleNames fs) {} = .ok (s, false) := by
    intro fs
    unfold decodeStyle
    rw [finish_ok]
    unfold structField
    simp only
    constructor
    · intro h
      split at h
      · cases h
      · rename_i p b hp
        simp only [id, Except.ok.injEq, Prod.mk.injEq] at h
        obtain ⟨rfl, rfl⟩ := h
        exact hp
    · intro h; rw [h]; rfl
  rw [hd, hd, renamed_append, renamed_append, e, e', e, decFields_append_ok, decFields_append_ok]
  refine exists_congr fun s1 => and_congr_right fun _ => ?_
  rw [decFields_cons_ok, decFields_cons_ok]
  constructor
  · rintro ⟨t, ht, h⟩
    obtain ⟨t', ht', h⟩ := decFields_cons_ok.1 h
    obtain ⟨r, hr, rfl⟩ := (hf _ _ _).1 ht
    obtain ⟨r', hr', rfl⟩ := (hf _ _ _).1 ht'
    exact ⟨_, (hf _ _ _).2 ⟨r', (layers_over l s1.layers r').1 ⟨r, hr, hr'⟩, rfl⟩, h⟩
  · rintro ⟨t, ht, h⟩
    obtain ⟨r', hr', rfl⟩ := (hf _ _ _).1 ht
    obtain ⟨r, hr, hr2⟩ := (layers_over l s1.layers r').2 hr'
    exact ⟨_, (hf _ _ _).2 ⟨r, hr, rfl⟩, decFields_cons_ok.2 ⟨_, (hf _ _ _).2 ⟨r', hr2, rfl⟩, h⟩⟩

/-! ## Parse -/

/-- `Parse` succeeds exactly when the document is accepted and its background colour can be computed: the first layer, if any, is not null,
and if it is called "background" it has a paint whose background colour has a value at zoom 0. -/
theorem C69_parse (rnd : ℚ → ℚ) (imp : Nat) (A : Arith ℚ) (j : Json) (s : StyleVal) (c : ColOut ℚ) :
    parseStyle rnd imp A j = .ok (s, c) ↔ decodeStyle rnd imp j = .ok s ∧
      ((s.layers = [] ∧ c = .color (.rgba 255 255 255 255)) ∨
       (∃ l rest, s.layers = some l :: rest ∧
          ((l.id ≠ "background" ∧ c = .color (.rgba 255 255 255 255)) ∨
           (l.id = "background" ∧ ∃ p, l.paint = some p ∧ (p.colour "background-color").at A 0 = .ok c)))) := by
  unfold parseStyle
  cases hd : decodeStyle rnd imp j with
  | error e => simp
  | ok s' =>
    simp only [Except.ok.injEq]
    have key : s'.background A = .ok c ↔ ((s'.layers = [] ∧ c = .color (.rgba 255 255 255 255)) ∨
       (∃ l rest, s'.layers = some l :: rest ∧
          ((l.id ≠ "background" ∧ c = .color (.rgba 255 255 255 255)) ∨
           (l.id = "background" ∧ ∃ p, l.paint = some p ∧ (p.colour "background-color").at A 0 = .ok c)))) := by
      unfold StyleVal.background
      generalize s'.layers = ls
      match ls with
      | [] =>
        constructor
        · intro h; cases h; exact .inl ⟨rfl, rfl⟩
        · rintro (⟨_, rfl⟩ | ⟨l, rest, h, _⟩)
          · rfl
          · cases h
      | none :: rest =>
        constructor
        · intro h; cases h
        · rintro (⟨h, _⟩ | ⟨l, rest, h, _⟩) <;> cases h
      | some l :: rest =>
        simp only
        by_cases hb : l.id = "background"
        · rw [if_pos hb]
          constructor
          · intro h
            cases hp : l.paint with
            | none => rw [hp] at h; cases h
            | some p => rw [hp] at h; exact .inr ⟨l, rest, rfl, .inr ⟨hb, p, hp, h⟩⟩
          · rintro (⟨h, _⟩ | ⟨l', rest', h, ⟨h', _⟩ | ⟨_, p, hp, h'⟩⟩)
            · cases h
            · cases h; exact absurd hb h'
            · cases h; rw [hp]; exact h'
        · rw [if_neg hb]
          constructor
          · intro h; cases h; exact .inr ⟨l, rest, rfl, .inl ⟨hb, rfl⟩⟩
          · rintro (⟨h, _⟩ | ⟨l', rest', h, ⟨_, rfl⟩ | ⟨h', _⟩⟩)
            · cases h
            · rfl
            · cases h; exact absurd h' hb
    cases hb : s'.background A with
    | error e =>
      rw [hb] at key
      simp only [reduceCtorEq, false_iff] at key
      constructor
      · intro h; cases h
      · rintro ⟨rfl, h⟩; exact absurd h key
    | ok c' =>
      rw [hb] at key
      simp only [Except.ok.injEq, Prod.mk.injEq]
      constructor
      · rintro ⟨rfl, rfl⟩; exact ⟨rfl, key.1 rfl⟩
      · rintro ⟨rfl, h⟩; exact ⟨rfl, by simpa using key.2 h⟩

/-- A style whose first layer is called "background" and has the background colour `#rrggbb` has exactly this background. -/
theorem C69_background (rnd : ℚ → ℚ) (imp : Nat) (A : Arith ℚ) (x1 x2 x3 x4 x5 x6 : Char) (a1 a2 a3 a4 a5 a6 : Nat)
    (h1 : HexDigit x1 a1) (h2 : HexDigit x2 a2) (h3 : HexDigit x3 a3) (h4 : HexDigit x4 a4) (h5 : HexDigit x5 a5)
    (h6 : HexDigit x6 a6) :
    ∃ s, parseStyle rnd imp A (.obj [("version", .num ⟨8, some 8⟩), ("layers", .arr [.obj [("id", .str "background"),
      ("paint", .obj [("background-color", .str (String.ofList ['#', x1, x2, x3, x4, x5, x6]))])]])]) =
        .ok (s, .color (.rgba (16 * a1 + a2) (16 * a3 + a4) (16 * a5 + a6) 255)) ∧ s.version = 8 ∧ s.layers.length = 1 := by
  have hc : colourOf rnd imp (.str (String.ofList ['#', x1, x2, x3, x4, x5, x6])) =
      .ok (.plain (.rgba (16 * a1 + a2) (16 * a3 + a4) (16 * a5 + a6) 255)) := by
    simp only [colourOf, String.toList_ofList, C52_hex6 rnd x1 x2 x3 x4 x5 x6 a1 a2 a3 a4 a5 a6 255 h1 h2 h3 h4 h5 h6]
    rfl
  have hv : Ty.int (.num ⟨8, some 8⟩) = true := rfl
  let p : Paint := ⟨Function.update Paint.zero.colour "background-color"
    (.plain (.rgba (16 * a1 + a2) (16 * a3 + a4) (16 * a5 + a6) 255)), Paint.zero.number⟩
  let l : LayerDoc := { id := "background", paint := some p }
  refine ⟨_, (C69_parse rnd imp A _ ⟨"", 8, [some l]⟩ _).2 ⟨?_, ?_⟩, rfl, rfl⟩
  · unfold decodeStyle
    rw [finish_ok]
    unfold structField
    simp only [renamed_two (names := styleNames) (k := "version") (k' := "layers") _ _ styleNames_ok (by decide) (by decide),
      renamed_two (names := layerNames) (k := "id") (k' := "paint") _ _ layerNames_ok (by decide) (by decide),
      renamed_one (names := paintNames) (k := "background-color") _ paintNames_ok (by decide),
      decFields, styleField, String.reduceEq, if_false, if_true, hv, decOver, layerElem, structField, layerField, strField,
      paintField, ptrField, hc]
    rw [if_pos (by decide)]
    rfl
  · refine .inr ⟨_, _, rfl, .inr ⟨rfl, _, rfl, ?_⟩⟩
    have : p.colour "background-color" = .plain (.rgba (16 * a1 + a2) (16 * a3 + a4) (16 * a5 + a6) 255) :=
      Function.update_self (β := fun _ => ColVal) "background-color" _ Paint.zero.colour
    rw [this]
    rfl

end Verif.Style
