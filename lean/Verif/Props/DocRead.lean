import Verif.Proof.DocRead
import Verif.Props.DocForms
import Verif.Props.JsonText

/-!
# Which documents are accepted and what they give
-/
namespace Verif.DocRead

open Verif.Doc Verif.JText Verif.Go

/-! ### Acceptance -/

theorem acc_text_ptr : Accepts (ptrC strC) (fun o => ∀ a, o = some a → True) Text := acc_ptr acc_str trivial

theorem acc_texts : Accepts (sliceC strC) (fun o => ∀ l, o = some l → ∀ a ∈ l, True) (ListOf Text) := acc_slice acc_str

theorem acc_layer : ∃ I, Accepts vectorLayerC I LayerShape :=
  ⟨_, acc_iso (fun _ => rfl) (acc_struct vectorLayer_distinct
    (.cons acc_int <| .cons acc_int <| .cons acc_str <| .cons acc_str <| .cons acc_str <| .cons (acc_map acc_str) <|
      .cons acc_texts <| .cons acc_str <| .cons (acc_uint (le_refl 64)) <| .cons (acc_uint (le_refl 64)) <|
      .cons acc_texts .nil))⟩

theorem acc_tileJSON (short : ℚ → Str) : ∃ I, Accepts (tileJSONC short) I TileJSONShape := by
  obtain ⟨I, hl⟩ := acc_layer
  exact ⟨_, acc_iso (fun _ => rfl) (acc_struct (tileJSON_distinct short)
    (.cons acc_str <| .cons acc_text_ptr <| .cons (acc_array 4 (acc_float short)) <|
      .cons (acc_array 3 (acc_float short)) <| .cons acc_str <| .cons (acc_uint (le_refl 64)) <|
      .cons (acc_uint (le_refl 64)) <| .cons acc_text_ptr <| .cons acc_text_ptr <| .cons acc_str <| .cons acc_str <|
      .cons acc_texts <| .cons acc_texts <| .cons acc_texts <| .cons acc_str <| .cons acc_text_ptr <| .cons acc_text_ptr <|
      .cons (acc_slice hl) <| .cons acc_str <| .cons (acc_uint (by norm_num)) .nil))⟩

theorem acc_tilesets (short : ℚ → Str) : ∃ I, Accepts (sliceC (tilesetC short)) I TilesetsShape :=
  ⟨_, acc_slice (acc_iso (fun _ => rfl) (acc_struct (tileset_distinct short)
    (.cons acc_str <| .cons (acc_array 3 (acc_float short)) <| .cons acc_time <| .cons acc_str <| .cons acc_int <|
      .cons acc_str <| .cons acc_time <| .cons acc_str <| .cons acc_str <| .cons acc_str .nil)))⟩

theorem acc_styles : ∃ I, Accepts (sliceC listStyleC) I StylesShape :=
  ⟨_, acc_slice (acc_iso (fun _ => rfl) (acc_struct listStyle_distinct
    (.cons acc_int <| .cons acc_str <| .cons acc_time <| .cons acc_str <| .cons acc_time <| .cons acc_str .nil)))⟩

theorem acc_recipe : ∃ I, Accepts recipeC I RecipeShape :=
  ⟨_, acc_iso (fun _ => rfl) (acc_struct recipe_distinct
    (.cons acc_int <| .cons (acc_map (acc_iso (fun _ => rfl) (acc_struct recipeLayer_distinct
      (.cons acc_str <| .cons (acc_uint (le_refl 64)) <| .cons (acc_uint (le_refl 64)) .nil)))) .nil))⟩

theorem acc_languages : ∃ I, Accepts (sliceC (ptrC languageC)) I LanguagesShape := by
  have hc : Accepts (sliceC (uintC 32)) _ (ListOf (Nat' (2 ^ 32))) := acc_slice (acc_uint (by norm_num))
  exact ⟨_, acc_slice (acc_ptr (acc_iso (fun _ => rfl) (acc_struct language_distinct
    (.cons acc_str <| .cons acc_str <| .cons (acc_iso (fun _ => rfl) (acc_struct codePoints_distinct
      (.cons hc <| .cons hc <| .cons hc <| .cons hc .nil))) .nil))) trivial)⟩

theorem acc_layerData (short : ℚ → Str) : ∃ I, Accepts (ptrC (layerDataC short)) I LayerDataShape := by
  have ha : Accepts (sliceC (attributeC short)) _ _ := acc_slice (acc_iso (fun _ => rfl) (acc_struct (attribute_distinct short)
    (.cons acc_str <| .cons acc_int <| .cons acc_str <| .cons (acc_slice (acc_any short)) .nil)))
  have hl : Accepts (sliceC (statLayerC short)) _ _ := acc_slice (acc_iso (fun _ => rfl) (acc_struct (statLayer_distinct short)
    (.cons acc_str <| .cons acc_int <| .cons acc_str <| .cons acc_int <| .cons ha .nil)))
  have hs : Accepts (ptrC (tileStatsC short)) _ _ := acc_ptr (acc_iso (fun _ => rfl) (acc_struct (tileStats_distinct short)
    (.cons acc_int <| .cons hl .nil))) trivial
  have hv : Accepts (ptrC (sliceC (mbLayerC short))) _ _ := acc_ptr (acc_slice (acc_iso (fun _ => rfl)
    (acc_struct (mbLayer_distinct short)
      (.cons acc_str <| .cons (acc_map (acc_any short)) <| .cons acc_str <| .cons acc_int <| .cons acc_int .nil)))) trivial
  exact ⟨_, acc_ptr (acc_iso (fun _ => rfl) (acc_struct (layerData_distinct short) (.cons hv <| .cons hs .nil))) trivial⟩

theorem acc_metadata (short : ℚ → Str) (addr : Bool) : ∃ I, Accepts (metadataC short addr) I MetadataShape := by
  obtain ⟨I, hl⟩ := acc_layerData short
  exact ⟨_, acc_iso (fun _ => rfl) (acc_struct (metadata_distinct short addr)
    (.cons acc_str <| .cons (acc_uint (by norm_num)) <| .cons (acc_array 4 (acc_float short)) <|
      .cons (acc_array 3 (acc_float short)) <| .cons acc_int <| .cons acc_int <| .cons acc_str <| .cons acc_str <|
      .cons (acc_kind addr) <| .cons acc_str <| .cons hl <| .cons acc_str <| .cons acc_str <| .cons acc_str <|
      .cons acc_str <| .cons (acc_any short) <| .cons (acc_ptr (acc_array 2 acc_int) trivial) .nil))⟩

/-- **C96.** `GetTileJSON` accepts a document exactly when it is a TileJSON document: null, or an object whose members have
the kinds of values their names call for. Otherwise there is an error and the zero `TileJSON`. -/
theorem C96_tilejson (short : ℚ → Str) (j : J) (hj : Spelled j) :
    ((getTileJSON short j).2 = true ↔ TileJSONShape j) ∧
    (¬ TileJSONShape j → getTileJSON short j = ((tileJSONC short).zero, false)) := by
  obtain ⟨I, h⟩ := acc_tileJSON short
  have := acc_read h hj
  unfold getTileJSON
  cases hr : (tileJSONC short).read j with
  | none =>
    rw [hr] at this
    simp only [reduceCtorEq, exists_false, false_iff] at this
    exact ⟨by simp [this], fun _ => rfl⟩
  | some t =>
    rw [hr] at this
    simp only [Option.some.injEq, exists_eq', true_iff] at this
    exact ⟨by simp [this], fun h => absurd this h⟩

/-- **C96.** The same for the other documents: the pages of tilesets and styles, recipes, languages, the `json` entry of an
mbtiles file, and metadata. -/
theorem C96_documents (short : ℚ → Str) (j : J) (hj : Spelled j) :
    ((∃ v, tilesetPage short j = some v) ↔ TilesetsShape j) ∧ ((∃ v, stylePage j = some v) ↔ StylesShape j) ∧
    ((∃ v, recipeC.read j = some v) ↔ RecipeShape j) ∧ ((∃ v, newFontCoverage j = some v) ↔ LanguagesShape j) ∧
    ((∃ v, (ptrC (layerDataC short)).read j = some v) ↔ LayerDataShape j) ∧
    (∀ addr, (∃ v, (metadataC short addr).read j = some v) ↔ MetadataShape j) := by
  obtain ⟨_, h1⟩ := acc_tilesets short
  obtain ⟨_, h2⟩ := acc_styles
  obtain ⟨_, h3⟩ := acc_recipe
  obtain ⟨_, h4⟩ := acc_languages
  obtain ⟨_, h5⟩ := acc_layerData short
  refine ⟨acc_read h1 hj, acc_read h2 hj, acc_read h3 hj, acc_read h4 hj, acc_read h5 hj, fun addr => ?_⟩
  obtain ⟨_, h6⟩ := acc_metadata short addr
  exact acc_read h6 hj

/-! ### Values -/

theorem named_eq (name : String) (ms : List (Str × J)) : valuesOf name.toList ms = named name ms := by
  unfold valuesOf named
  congr 1
  apply List.filter_congr
  intro m _
  rw [Bool.eq_iff_iff, beq_iff_eq, beq_iff_eq]
  exact eq_comm

theorem coords_arr (short : ℚ → Str) : ∀ (old : List ℚ) (js : List J), (∀ j ∈ js, Spelled j) →
    (decArr (floatC short) old js).2 = true → Coords old js (decArr (floatC short) old js).1
  | [], js, _, _ => ⟨rfl, fun i h => by simp [decArr] at h⟩
  | o :: os, [], hs, hok => by
    obtain ⟨h1, h2⟩ := coords_arr short os [] (by simp) (by cases os <;> rfl)
    refine ⟨by simp [decArr, h1], ?_⟩
    intro i h h'
    cases i with
    | zero => simp [decArr, Coord, floatC]
    | succ i =>
      simp only [decArr, List.getElem_cons_succ, List.getElem?_nil]
      have := h2 i (by simpa [decArr] using h) (by simpa using h')
      simpa using this
  | o :: os, j :: js, hs, hok => by
    simp only [decArr, Bool.and_eq_true] at hok
    obtain ⟨h1, h2⟩ := coords_arr short os js (fun j hj => hs j (by simp [hj])) hok.2
    refine ⟨by simp [decArr, h1], ?_⟩
    intro i h h'
    cases i with
    | zero =>
      simp only [decArr, List.getElem_cons_zero, List.getElem?_cons_zero]
      have hj := hs j (by simp)
      cases j with
      | num l =>
        obtain ⟨q, hq⟩ := number_val (l := l) (by simpa [Spelled] using hj)
        by_cases hr : InRange q
        · simp only [floatC, (num_read64 hq).1 hr, Coord]
          exact ⟨q, hq, hr, F64.nearest64 hr⟩
        · simp [floatC, (num_read64 hq).2 hr] at hok
      | null => simp [floatC, Coord]
      | _ => simp [floatC] at hok
    | succ i =>
      simp only [decArr, List.getElem_cons_succ, List.getElem?_cons_succ]
      exact h2 i (by simpa [decArr] using h) (by simpa using h')

theorem coords_all (short : ℚ → Str) (n : Nat) : ∀ (js : List J) (old : List ℚ), (∀ j ∈ js, Spelled j) →
    (decAll (arrayC n (floatC short)) old js).2 = true → CoordsFrom js old (decAll (arrayC n (floatC short)) old js).1
  | [], old, _, _ => rfl
  | j :: js, old, hs, hok => by
    simp only [decAll, Bool.and_eq_true] at hok ⊢
    have hrec := coords_all short n js ((arrayC n (floatC short)).dec old j).1 (fun j hj => hs j (by simp [hj])) hok.2
    have hj := hs j (by simp)
    cases j with
    | arr l =>
      simp only [Spelled] at hj
      exact ⟨_, coords_arr short old l (spelledL_mem hj) hok.1, hrec⟩
    | null => exact hrec
    | _ => simp [arrayC] at hok

theorem ptr_all : ∀ (js : List J) (old : Option Str), js ≠ [] → (decAll (ptrC strC) old js).2 = true →
    (decAll (ptrC strC) old js).1 = lastOrNull js
  | [], _, h, _ => absurd rfl h
  | [j], old, _, hok => by
    simp only [decAll, Bool.and_true] at hok ⊢
    unfold lastOrNull
    cases j <;> simp_all [ptrC, strC]
  | j :: k :: js, old, _, hok => by
    rw [decAll] at hok ⊢
    simp only [Bool.and_eq_true] at hok
    have := ptr_all (k :: js) ((ptrC strC).dec old j).1 (by simp) hok.2
    rw [this]
    unfold lastOrNull
    rw [List.getLast?_cons_cons]

theorem ptr_named (js : List J) (hok : (decAll (ptrC strC) none js).2 = true) :
    (decAll (ptrC strC) none js).1 = lastOrNull js := by
  by_cases h : js = []
  · subst h; rfl
  · exact ptr_all js none h hok

theorem overlay_eq : ∀ (js : List J) (old : List Str), (decList strC old js).1 = overlay old js
  | [], old => by cases old <;> rfl
  | j :: js, [] => by cases j <;> simp [decList, strC, overlay] <;> exact overlay_eq js []
  | j :: js, o :: os => by cases j <;> simp [decList, strC, overlay] <;> exact overlay_eq js os

theorem texts_all : ∀ (js : List J) (old : Option (List Str)), (decAll (sliceC strC) old js).2 = true →
    (decAll (sliceC strC) old js).1 = js.foldl (fun old j => match j with
      | .arr l => some (overlay (old.getD []) l)
      | _ => none) old
  | [], old, _ => rfl
  | j :: js, old, hok => by
    simp only [decAll, Bool.and_eq_true] at hok ⊢
    rw [texts_all js _ hok.2, List.foldl_cons]
    congr 1
    cases j <;> simp_all [sliceC, overlay_eq]

/-- **C96.** What `GetTileJSON` takes from any document it accepts, beside the texts and whole numbers of C94: the bounds and
the centre are the numbers of the lists given, rounded to float64, zeros where a list is too short, null leaving what a list
before it gave; the texts that may be nil are the last ones given, nil if that is null; and the lists of addresses are the
last ones given. -/
theorem C96_values (short : ℚ → Str) (ms : List (Str × J)) (hj : Spelled (.obj ms)) (t : TileJSON)
    (h : getTileJSON short (.obj ms) = (t, true)) :
    CoordsFrom (named "bounds" ms) [0, 0, 0, 0] t.bounds ∧ CoordsFrom (named "center" ms) [0, 0, 0] t.center ∧
    t.attribution = lastOrNull (named "attribution" ms) ∧ t.name = lastOrNull (named "name" ms) ∧
    t.description = lastOrNull (named "description" ms) ∧ t.template = lastOrNull (named "template" ms) ∧
    t.legend = lastOrNull (named "legend" ms) ∧ t.tiles = textsFrom (named "tiles" ms) ∧
    t.grids = textsFrom (named "grids" ms) ∧ t.data = textsFrom (named "data" ms) := by
  have hr : (tileJSONC short).read (.obj ms) = some t := by
    unfold getTileJSON at h
    cases hq : (tileJSONC short).read (.obj ms) with
    | none => rw [hq] at h; simp at h
    | some t' => rw [hq] at h; simp at h; rw [h]
  obtain ⟨h1, h2⟩ := read_some (tileJSON_distinct short) rfl hr
  simp only [tileJSONR, Rec.gather, Rec.zero, Bool.and_eq_true, named_eq] at h2
  obtain ⟨-, hattr, hb, hc, -, -, -, hn, hde, -, -, hti, hg, hda, -, hte, hle, -, -, -, -⟩ := h2
  simp only [Spelled] at hj
  have hsp : ∀ name, ∀ j ∈ named name ms, Spelled j := by
    intro name j hm
    rw [← named_eq] at hm
    obtain ⟨m, hm', -, rfl⟩ := mem_valuesOf.mp hm
    exact spelledM_mem hj m hm'
  subst h1
  simp only [tileJSONR, Rec.gather, Rec.zero, named_eq]
  exact ⟨coords_all short 4 _ _ (hsp _) hb, coords_all short 3 _ _ (hsp _) hc, ptr_named _ hattr, ptr_named _ hn,
    ptr_named _ hde, ptr_named _ hte, ptr_named _ hle, texts_all _ _ hti, texts_all _ _ hg, texts_all _ _ hda⟩

/-! ### Maps -/

theorem mapSet_lookup {α : Type} (k k' : Str) (v : α) : ∀ m : List (Str × α), Sorted m →
    (mapSet k v m).lookup k' = if k' = k then some v else m.lookup k'
  | [], _ => by
    simp only [mapSet, List.lookup_cons, List.lookup_nil]
    by_cases h : k' = k
    · simp [h]
    · rw [if_neg h, show (k' == k) = false by simpa using h]
  | (k1, v1) :: m, hs => by
    have hs' := List.pairwise_cons.mp hs
    simp only [mapSet]
    by_cases h1 : k = k1
    · subst h1
      rw [if_pos rfl, List.lookup_cons, List.lookup_cons]
      by_cases h : k' = k
      · simp [h]
      · rw [if_neg h, show (k' == k) = false by simpa using h]
    · rw [if_neg h1]
      by_cases h2 : k < k1
      · rw [if_pos h2, List.lookup_cons]
        by_cases h : k' = k
        · simp [h]
        · rw [if_neg h, show (k' == k) = false by simpa using h]
      · rw [if_neg h2, List.lookup_cons, List.lookup_cons]
        by_cases h : k' = k1
        · subst h
          rw [if_neg (fun h => h1 h.symm), beq_self_eq_true]
        · rw [show (k' == k1) = false by simpa using h]
          exact mapSet_lookup k k' v m hs'.2

theorem mapSet_keys {α : Type} {k : Str} {v : α} : ∀ {m : List (Str × α)} {e : Str × α}, e ∈ mapSet k v m →
    e.1 = k ∨ e ∈ m
  | [], e, h => by
    simp only [mapSet, List.mem_singleton] at h
    subst h; exact Or.inl rfl
  | (k', v') :: r, e, h => by
    simp only [mapSet] at h
    split at h
    · rcases List.mem_cons.mp h with rfl | h
      · exact Or.inl rfl
      · exact Or.inr (by simp [h])
    · split at h
      · rcases List.mem_cons.mp h with rfl | h
        · exact Or.inl rfl
        · exact Or.inr h
      · rcases List.mem_cons.mp h with rfl | h
        · exact Or.inr (by simp)
        · rcases mapSet_keys h with h | h
          · exact Or.inl h
          · exact Or.inr (by simp [h])

theorem mapSet_sorted {α : Type} (k : Str) (v : α) : ∀ m : List (Str × α), Sorted m → Sorted (mapSet k v m)
  | [], _ => by simp [mapSet, Sorted]
  | (k1, v1) :: m, hs => by
    have hs' := List.pairwise_cons.mp hs
    simp only [mapSet]
    by_cases h1 : k = k1
    · subst h1
      rw [if_pos rfl]
      exact List.pairwise_cons.mpr ⟨hs'.1, hs'.2⟩
    · rw [if_neg h1]
      by_cases h2 : k < k1
      · rw [if_pos h2]
        refine List.pairwise_cons.mpr ⟨?_, hs⟩
        intro e he
        rcases List.mem_cons.mp he with rfl | he
        · exact h2
        · exact List.lt_trans h2 (hs'.1 e he)
      · rw [if_neg h2]
        refine List.pairwise_cons.mpr ⟨?_, mapSet_sorted k v m hs'.2⟩
        intro e he
        rcases mapSet_keys he with h | h
        · rw [h]
          by_contra h3
          exact h1 (List.le_antisymm (List.not_lt.mp h3) (List.not_lt.mp h2))
        · exact hs'.1 e h

theorem decMap_lookup {α : Type} (c : Codec α) (k : Str) : ∀ (ms : List (Str × J)) (m : List (Str × α)), Sorted m →
    Sorted (decMap c m ms).1 ∧ (decMap c m ms).1.lookup k =
      match lastFor k ms with
      | some j => some (c.dec c.zero j).1
      | none => m.lookup k
  | [], m, hs => ⟨hs, rfl⟩
  | (k', j) :: ms, m, hs => by
    simp only [decMap]
    have hs2 := mapSet_sorted k' (c.dec c.zero j).1 m hs
    obtain ⟨h1, h2⟩ := decMap_lookup c k ms _ hs2
    refine ⟨h1, ?_⟩
    rw [h2, mapSet_lookup k' k _ m hs]
    unfold lastFor
    by_cases h : k' = k
    · subst h
      rw [List.filter_cons_of_pos (by simp), List.map_cons, if_pos rfl]
      cases hf : (ms.filter fun m => m.1 == k').map Prod.snd with
      | nil => rfl
      | cons a l =>
        rw [List.getLast?_cons_cons, List.getLast?_eq_some_getLast (List.cons_ne_nil a l)]
    · rw [List.filter_cons_of_neg (by simpa using h), if_neg (fun h' => h h'.symm)]

/-- The text a map of texts gets from a value: null is the empty text. -/
def textOf : J → Str
  | .str s => s
  | _ => []

/-- **C96.** The fields of a layer of a TileJSON document: for every name the last text given under exactly that name (names in
a map are not folded), and no others. -/
theorem C96_fields (ms : List (Str × J)) (fields : List (Str × J)) (k : Str) (hk : fold k = fold "fields".toList)
    (a b : List (Str × J)) (hms : ms = a ++ (k, .obj fields) :: b)
    (hother : ∀ m ∈ a ++ b, fold m.1 ≠ fold "fields".toList) (v : VectorLayer) (h : vectorLayerC.read (.obj ms) = some v) :
    ∃ m, v.fields = some m ∧ Sorted m ∧ ∀ name, m.lookup name = (lastFor name fields).map textOf := by
  obtain ⟨h1, h2⟩ := read_some vectorLayer_distinct rfl h
  have hv : valuesOf "fields".toList ms = [.obj fields] := by
    rw [hms, valuesOf_append, valuesOf_cons, if_pos hk.symm,
      valuesOf_foreign (fun m hm => (hother m (List.mem_append_left _ hm)).symm),
      valuesOf_foreign (fun m hm => (hother m (List.mem_append_right _ hm)).symm)]
    rfl
  have hf : v.fields = some (decMap strC [] fields).1 := by
    rw [h1]
    simp only [vectorLayerR, Rec.gather, Rec.zero, hv]
    rfl
  refine ⟨_, hf, (decMap_lookup strC [] fields [] List.Pairwise.nil).1, fun name => ?_⟩
  rw [(decMap_lookup strC name fields [] List.Pairwise.nil).2]
  cases lastFor name fields with
  | none => rfl
  | some j => cases j <;> rfl

/-! ### null -/

/-- Fields that null leaves as they are. -/
def Rec.Keeps : {β : Type} → Rec β → Str → Prop
  | _, .nil, _ => True
  | _, .cons k' _ c r, k => (fold k = fold k' → ∀ old, c.dec old .null = (old, true)) ∧ Rec.Keeps r k

theorem gather_null : ∀ {β : Type} (r : Rec β) (k : Str), Rec.Keeps r k → ∀ (v : β) (a b : List (Str × J)),
    r.gather v (a ++ (k, .null) :: b) = r.gather v (a ++ b)
  | _, .nil, _, _, _, _, _ => rfl
  | _, .cons k' om c r, k, hk, v, a, b => by
    simp only [Rec.gather]
    rw [gather_null r k hk.2]
    have : decAll c v.1 (valuesOf k' (a ++ (k, .null) :: b)) = decAll c v.1 (valuesOf k' (a ++ b)) := by
      rw [valuesOf_append, valuesOf_append, valuesOf_cons]
      by_cases h : fold k' = fold k
      · rw [if_pos h, decAll_append, decAll_append]
        simp only [decAll, hk.1 h.symm, Bool.true_and]
      · rw [if_neg h]
    rw [this]

theorem read_null {β α : Type} {r : Rec β} (hd : r.Distinct) {split : α → β} {join : β → α} {k : Str} (hk : Rec.Keeps r k)
    (a b : List (Str × J)) :
    ((structC r).iso split join).read (.obj (a ++ (k, .null) :: b)) = ((structC r).iso split join).read (.obj (a ++ b)) := by
  unfold Codec.read
  simp only [Codec.iso, structC, members_gather r hd, gather_null r k hk]

/-- Null under a name is as good as nothing, wherever it stands. -/
def NullIsNothing {α : Type} (c : Codec α) (names : List String) : Prop :=
  ∀ k, (∃ n ∈ names, fold k = fold n.toList) → ∀ a b : List (Str × J),
    c.read (.obj (a ++ (k, .null) :: b)) = c.read (.obj (a ++ b))

theorem fold_ne {k : Str} {n : String} {names : List String} (h : ∃ n ∈ names, fold k = fold n.toList)
    (hd : ∀ m ∈ names, fold m.toList ≠ fold n.toList) : fold k ≠ fold n.toList := by
  obtain ⟨m, hm, hk⟩ := h
  rw [hk]
  exact hd m hm

theorem keeps_str : ∀ old, strC.dec old .null = (old, true) := fun _ => rfl
theorem keeps_int : ∀ old, intC.dec old .null = (old, true) := fun _ => rfl
theorem keeps_uint (b : Nat) : ∀ old, (uintC b).dec old .null = (old, true) := fun _ => rfl
theorem keeps_array (short : ℚ → Str) (n : Nat) : ∀ old, (arrayC n (floatC short)).dec old .null = (old, true) := fun _ => rfl
theorem keeps_time : ∀ old, timeC.dec old .null = (old, true) := fun _ => rfl

/-- The members of TileJSON documents that are not pointers or lists. -/
def plainTileJSON : List String :=
  ["id", "bounds", "center", "format", "minzoom", "maxzoom", "scheme", "tilejson", "version", "type", "tileSize"]

theorem null_tilejson (short : ℚ → Str) : NullIsNothing (tileJSONC short) plainTileJSON := by
  intro k hk a b
  have no : ∀ n : String, (∀ m ∈ plainTileJSON, fold m.toList ≠ fold n.toList) → ∀ {P : Prop}, fold k = fold n.toList → P :=
    fun n hd _ h => absurd h (fold_ne hk hd)
  refine read_null (tileJSON_distinct short) ?_ a b
  simp only [tileJSONR, Rec.Keeps]
  exact ⟨fun _ => keeps_str, no "attribution" (by decide +kernel), fun _ => keeps_array short 4, fun _ => keeps_array short 3,
    fun _ => keeps_str, fun _ => keeps_uint 64, fun _ => keeps_uint 64, no "name" (by decide +kernel),
    no "description" (by decide +kernel), fun _ => keeps_str, fun _ => keeps_str, no "tiles" (by decide +kernel),
    no "grids" (by decide +kernel), no "data" (by decide +kernel), fun _ => keeps_str, no "template" (by decide +kernel),
    no "legend" (by decide +kernel), no "vector_layers" (by decide +kernel), fun _ => keeps_str, fun _ => keeps_uint 32, trivial⟩

/-- **C96.** Null under the name of a text, a number, a list of coordinates, a date or an object leaves the document as it
would be without it — it neither refuses the document nor clears a value given before. -/
theorem C96_null (short : ℚ → Str) :
    NullIsNothing (tileJSONC short) plainTileJSON ∧
    NullIsNothing vectorLayerC ["version", "extent", "id", "source", "source_name", "geometry_type", "minzoom", "maxzoom"] ∧
    NullIsNothing (tilesetC short)
      ["type", "center", "created", "description", "filesize", "id", "modified", "name", "visibility", "status"] ∧
    NullIsNothing listStyleC ["version", "name", "created", "id", "modified", "owner"] ∧
    NullIsNothing recipeC ["version"] ∧ NullIsNothing recipeLayerC ["source", "minzoom", "maxzoom"] ∧
    NullIsNothing languageC ["id", "name", "codepoints"] := by
  refine ⟨null_tilejson short, ?_, ?_, ?_, ?_, ?_, ?_⟩
  · intro k hk a b
    have no : ∀ n : String, (∀ m ∈ ["version", "extent", "id", "source", "source_name", "geometry_type", "minzoom", "maxzoom"],
        fold m.toList ≠ fold n.toList) → ∀ {P : Prop}, fold k = fold n.toList → P := fun n hd _ h => absurd h (fold_ne hk hd)
    refine read_null vectorLayer_distinct ?_ a b
    simp only [vectorLayerR, Rec.Keeps]
    exact ⟨fun _ => keeps_int, fun _ => keeps_int, fun _ => keeps_str, fun _ => keeps_str, fun _ => keeps_str,
      no "fields" (by decide +kernel), no "feature_tags" (by decide +kernel), fun _ => keeps_str, fun _ => keeps_uint 64,
      fun _ => keeps_uint 64, no "tiles" (by decide +kernel), trivial⟩
  · intro k _ a b
    refine read_null (tileset_distinct short) ?_ a b
    simp only [tilesetR, Rec.Keeps]
    exact ⟨fun _ => keeps_str, fun _ => keeps_array short 3, fun _ => keeps_time, fun _ => keeps_str, fun _ => keeps_int,
      fun _ => keeps_str, fun _ => keeps_time, fun _ => keeps_str, fun _ => keeps_str, fun _ => keeps_str, trivial⟩
  · intro k _ a b
    refine read_null listStyle_distinct ?_ a b
    simp only [listStyleR, Rec.Keeps]
    exact ⟨fun _ => keeps_int, fun _ => keeps_str, fun _ => keeps_time, fun _ => keeps_str, fun _ => keeps_time,
      fun _ => keeps_str, trivial⟩
  · intro k hk a b
    have no : ∀ n : String, (∀ m ∈ ["version"], fold m.toList ≠ fold n.toList) → ∀ {P : Prop}, fold k = fold n.toList → P :=
      fun n hd _ h => absurd h (fold_ne hk hd)
    refine read_null recipe_distinct ?_ a b
    simp only [recipeR, Rec.Keeps]
    exact ⟨fun _ => keeps_int, no "layers" (by decide +kernel), trivial⟩
  · intro k _ a b
    refine read_null recipeLayer_distinct ?_ a b
    simp only [recipeLayerR, Rec.Keeps]
    exact ⟨fun _ => keeps_str, fun _ => keeps_uint 64, fun _ => keeps_uint 64, trivial⟩
  · intro k _ a b
    refine read_null language_distinct ?_ a b
    simp only [languageR, Rec.Keeps]
    exact ⟨fun _ => keeps_str, fun _ => keeps_str, fun _ => fun _ => rfl, trivial⟩

/-! ### Texts -/

mutual
theorem text_spelled : ∀ {j : J} {t : Str}, JText.Text j t → Spelled j
  | _, _, .null => by simp only [Spelled]
  | _, _, .true => by simp only [Spelled]
  | _, _, .false => by simp only [Spelled]
  | _, _, .num h => by simpa only [Spelled] using h
  | _, _, .str _ => by simp only [Spelled]
  | _, _, .emptyArr _ => by simp only [Spelled, SpelledL]
  | _, _, .arr h => by simpa only [Spelled] using elems_spelled h
  | _, _, .emptyObj _ => by simp only [Spelled, SpelledM]
  | _, _, .obj h => by simpa only [Spelled] using members_spelled h
theorem elems_spelled : ∀ {l : List J} {t : Str}, Elems l t → SpelledL l
  | _, _, .one _ h _ => by simpa only [SpelledL, and_true] using text_spelled h
  | _, _, .cons _ h _ hl => by simpa only [SpelledL] using ⟨text_spelled h, elems_spelled hl⟩
theorem members_spelled : ∀ {l : List (Str × J)} {t : Str}, Members l t → SpelledM l
  | _, _, .one _ _ _ _ h _ => by simpa only [SpelledM, and_true] using text_spelled h
  | _, _, .cons _ _ _ _ h _ hl => by simpa only [SpelledM] using ⟨text_spelled h, members_spelled hl⟩
end

/-- A text that begins (after white space) with a value of a shape, not nested too deeply; anything may follow. -/
def Begins (shape : J → Prop) (s : Str) : Prop :=
  ∃ j w t r, Ws w ∧ JText.Text j t ∧ s = w ++ (t ++ r) ∧ depth j ≤ 10000 ∧ shape j

/-- A text that is a value of a shape, not nested too deeply, and white space. -/
def Is (shape : J → Prop) (s : Str) : Prop := ∃ j, JsonText s j ∧ depth j ≤ 10000 ∧ shape j

theorem body_iff {α : Type} {c : Codec α} {I : α → Prop} {shape : J → Prop} (h : Accepts c I shape)
    (hn : ∀ l, ¬ shape (.num l)) (s : Str) : (∃ v, readBody c s = some v) ↔ Begins shape s := by
  unfold readBody
  constructor
  · rintro ⟨v, hv⟩
    cases hd : decode s with
    | none => rw [hd] at hv; cases hv
    | some j =>
      rw [hd] at hv
      obtain ⟨w, t, r, h1, h2, h3, h4⟩ := (C95_first s j).1 hd
      exact ⟨j, w, t, r, h1, h2, h3, h4, (acc_read h (text_spelled h2)).mp ⟨v, hv⟩⟩
  · rintro ⟨j, w, t, r, h1, h2, h3, h4, h5⟩
    rw [(C95_first s j).2 w t r h1 h2 h3 h4 (by rintro ⟨n, rfl⟩; exact absurd h5 (hn n))]
    exact (acc_read h (text_spelled h2)).mpr h5

theorem all_iff {α : Type} {c : Codec α} {I : α → Prop} {shape : J → Prop} (h : Accepts c I shape) (s : Str) :
    (∃ v, readAll c s = some v) ↔ Is shape s := by
  unfold readAll
  constructor
  · rintro ⟨v, hv⟩
    cases hd : unmarshal s with
    | none => rw [hd] at hv; cases hv
    | some j =>
      rw [hd] at hv
      obtain ⟨h1, h2⟩ := (C95_reads s j).mp hd
      obtain ⟨w, t, w', -, h3, -⟩ := id h1
      exact ⟨j, h1, h2, (acc_read h (text_spelled h3)).mp ⟨v, hv⟩⟩
  · rintro ⟨j, h1, h2, h3⟩
    rw [(C95_reads s j).mpr ⟨h1, h2⟩]
    obtain ⟨w, t, w', -, h4, -⟩ := h1
    exact (acc_read h (text_spelled h4)).mpr h3

/-- **C96.** The texts that are accepted. The answers of a server, and the languages, are read up to the end of the first value;
the `json` entry of an mbtiles file, recipes and metadata must be one value. -/
theorem C96_texts (short : ℚ → Str) (s : Str) :
    ((tileJSONBody short s).2 = true ↔ Begins TileJSONShape s) ∧
    ((∃ v, readBody (sliceC (tilesetC short)) s = some v) ↔ Begins TilesetsShape s) ∧
    ((∃ v, readBody (sliceC listStyleC) s = some v) ↔ Begins StylesShape s) ∧
    ((∃ v, fontCoverage s = some v) ↔ Begins LanguagesShape s) ∧
    ((∃ v, (layerDataText short).dec s = some v) ↔ Is LayerDataShape s) ∧
    ((∃ v, readAll recipeC s = some v) ↔ Is RecipeShape s) ∧
    (∀ addr, (∃ v, readAll (metadataC short addr) s = some v) ↔ Is MetadataShape s) := by
  obtain ⟨_, h0⟩ := acc_tileJSON short
  obtain ⟨_, h1⟩ := acc_tilesets short
  obtain ⟨_, h2⟩ := acc_styles
  obtain ⟨_, h3⟩ := acc_recipe
  obtain ⟨_, h4⟩ := acc_languages
  obtain ⟨_, h5⟩ := acc_layerData short
  refine ⟨?_, body_iff h1 (fun l h => h) s, body_iff h2 (fun l h => h) s, body_iff h4 (fun l h => h) s, all_iff h5 s, all_iff h3 s,
    fun addr => ?_⟩
  · rw [← body_iff h0 (fun l h => h) s]
    unfold tileJSONBody
    cases readBody (tileJSONC short) s <;> simp
  · obtain ⟨_, h6⟩ := acc_metadata short addr
    exact all_iff h6 s

/-! ### More than one `json` row -/

theorem unmarshal_of {s : Str} {j : J} (h : unmarshal s = some j) : Spelled j := by
  obtain ⟨⟨w, t, w', -, h4, -⟩, -⟩ := (C95_reads s j).mp h
  exact text_spelled h4

/-- **C95.** A `json` row after another one is an error exactly when it would be one on its own: what `json.Unmarshal` says about it does
not depend on the layer data of the rows before it. -/
theorem C95_json_row_again (short : ℚ → Str) (t t' : Str) (d : LayerData) (h : (layerDataText short).dec t = some (some d)) :
    ((layerDataText short).dec t' ≠ none ↔ ∃ j, unmarshal t' = some j ∧ ((ptrC (layerDataC short)).dec (some d) j).2 = true) ∧
    ∀ j, unmarshal t' = some j → (layerDataText short).more d t' = ((ptrC (layerDataC short)).dec (some d) j).1 := by
  obtain ⟨I, hI⟩ := acc_layerData short
  refine ⟨?_, fun j hj => by simp only [layerDataText, hj]⟩
  have hd : I (some d) := by
    simp only [layerDataText, readAll] at h
    cases hu : unmarshal t with
    | none => rw [hu] at h; cases h
    | some j =>
      rw [hu] at h
      have := (hI.2 _ hI.1 j (unmarshal_of hu)).1
      unfold Codec.read at h
      simp only at h
      split at h
      · simp only [Option.some.injEq] at h; rw [h] at this; exact this
      · cases h
  simp only [layerDataText, readAll]
  cases hu : unmarshal t' with
  | none => simp
  | some j =>
    have h1 := acc_read hI (unmarshal_of hu)
    have h2 := (hI.2 _ hd j (unmarshal_of hu)).2
    simp only [Option.some.injEq, exists_eq_left']
    rw [h2, ← h1, ne_eq, Option.eq_none_iff_forall_ne_some]
    push Not
    rfl

theorem members_append {β : Type} (r : Rec β) : ∀ (v : β) (a b : List (Str × J)),
    r.members v (a ++ b) = ((r.members (r.members v a).1 b).1, (r.members v a).2 && (r.members (r.members v a).1 b).2)
  | v, [], b => by simp [Rec.members]
  | v, m :: a, b => by
    simp only [List.cons_append, Rec.members, members_append r _ a b, Bool.and_assoc]

theorem depthM_append : ∀ a b : List (Str × J), depthM (a ++ b) = max (depthM a) (depthM b)
  | [], b => by simp [depthM]
  | (k, j) :: a, b => by simp only [List.cons_append, depthM, depthM_append a b, max_assoc]

theorem layerData_append (short : ℚ → Str) (v : LayerData) (a b : List (Str × J)) :
    (layerDataC short).dec v (.obj (a ++ b)) = (((layerDataC short).dec ((layerDataC short).dec v (.obj a)).1 (.obj b)).1,
      ((layerDataC short).dec v (.obj a)).2 && ((layerDataC short).dec ((layerDataC short).dec v (.obj a)).1 (.obj b)).2) := by
  show ((fun r : _ × Bool => ((⟨r.1.1, r.1.2.1⟩ : LayerData), r.2)) ((layerDataR short).members (v.vectorLayers, v.tileStats, ()) (a ++ b))) = _
  rw [members_append]
  rfl

/-- **C95.** Two `json` rows that are objects are read as one object with the members of the first and then those of the second; a row
that is null after another leaves no layer data. -/
theorem C95_json_rows_merged (short : ℚ → Str) (t t' u : Str) (a b : List (Str × J)) (d : LayerData) (ht : JsonText t (.obj a))
    (ht' : JsonText t' (.obj b)) (hu : JsonText u (.obj (a ++ b))) (h : (layerDataText short).dec t = some (some d))
    (h' : (layerDataText short).dec t' ≠ none) :
    (layerDataText short).dec u = some ((layerDataText short).more d t') ∧ ∀ n, JsonText n .null → (layerDataText short).more d n = none := by
  have key : ∀ (s : Str) j, JsonText s j → (layerDataText short).dec s ≠ none → unmarshal s = some j := by
    intro s j hs hne
    cases hx : unmarshal s with
    | none => simp only [layerDataText, readAll, hx] at hne; exact absurd rfl hne
    | some j' => rw [C95_unambiguous _ _ _ ((C95_reads _ _).mp hx).1 hs]
  have u1 := key t _ ht (by rw [h]; simp)
  have u2 := key t' _ ht' h'
  have d1 := ((C95_reads _ _).mp u1).2
  have d2 := ((C95_reads _ _).mp u2).2
  have u3 : unmarshal u = some (.obj (a ++ b)) := by
    refine (C95_reads _ _).mpr ⟨hu, ?_⟩
    simp only [depth, depthM_append] at d1 d2 ⊢
    omega
  obtain ⟨j, hj, h2⟩ := (C95_json_row_again short t t' d h).1.1 h'
  rw [u2] at hj
  cases hj
  constructor
  · simp only [layerDataText, readAll, u1, u2, u3, Codec.read, ptrC, Option.getD_none, Option.getD_some] at h h2 ⊢
    rw [layerData_append]
    cases he : ((layerDataC short).dec (layerDataC short).zero (J.obj a)).2 with
    | false => rw [he] at h; simp at h
    | true =>
      rw [he] at h
      simp only [if_true, Option.some.injEq] at h
      rw [h, h2]
      rfl
  · intro n hn
    have : unmarshal n = some .null := (C95_reads _ _).mpr ⟨hn, by simp [depth]⟩
    simp only [layerDataText, this, ptrC]

/-- Two rows that meet the hypotheses of C95_json_rows_merged: the data has the layers of the one and the statistics of the other. -/
example : (match (layerDataText allDecimals).dec "{\"vector_layers\":[]}".toList with
    | some (some d) =>
      match (layerDataText allDecimals).more d "{\"tilestats\":{\"layerCount\":1}}".toList with
      | some r => (r.vectorLayers.isSome, r.tileStats.isSome)
      | none => (false, false)
    | _ => (false, false)) = (true, true) ∧ ((layerDataText allDecimals).dec "{\"tilestats\":{\"layerCount\":1}}".toList).isSome = true := by
  decide +kernel

/-! ### Non-vacuity -/

/-- A TileJSON document with a name in capitals, null for its version, an unknown member and two numbers for its bounds. -/
def demoRead : J :=
  .obj [("ID".toList, .str "a".toList), ("version".toList, .null), ("x".toList, .obj []),
    ("bounds".toList, .arr [.num "-1.5e1".toList, .num "2".toList]), ("minzoom".toList, .num "3".toList)]

/-- It meets the hypotheses of C96_tilejson and C96_values, has the shape and is accepted. -/
example : Spelled demoRead ∧ TileJSONShape demoRead ∧ (getTileJSON allDecimals demoRead).2 = true := by
  have hs : Spelled demoRead := by
    simp only [demoRead, Spelled, SpelledM, SpelledL, and_true, true_and]
    exact ⟨⟨(scanNum_sound (s := "-1.5e1".toList) (r := []) (by decide +kernel)).2,
      (scanNum_sound (s := "2".toList) (r := []) (by decide +kernel)).2⟩,
      (scanNum_sound (s := "3".toList) (r := []) (by decide +kernel)).2⟩
  have ht : (getTileJSON allDecimals demoRead).2 = true := by decide +kernel
  exact ⟨hs, (C96_tilejson _ demoRead hs).1.mp ht, ht⟩

/-- A text that is accepted though something follows it, and so begins with a document; and one that is not. -/
example : Begins TileJSONShape " {\"bounds\":[1,2,3,4,\"x\"],\"y\":null} rest".toList ∧
    ¬ Begins TileJSONShape "{\"bounds\":[1,\"x\"]}".toList :=
  ⟨(C96_texts allDecimals _).1.mp (by decide +kernel), fun h =>
    absurd ((C96_texts allDecimals _).1.mpr h) (by decide +kernel)⟩

/-- A layer that meets the hypotheses of C96_fields. -/
example : (vectorLayerC.read (.obj [("Fields".toList, .obj [("a".toList, .str "x".toList), ("A".toList, .null),
    ("a".toList, .str "y".toList)])])).map (·.fields) = some (some [("A".toList, []), ("a".toList, "y".toList)]) := by
  decide +kernel

end Verif.DocRead
