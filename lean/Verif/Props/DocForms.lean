import Verif.Props.Doc
import Verif.Proof.Float64

/-!
# C94: JSON documents: their form, documents of others, errors
-/
namespace Verif.Doc

open Verif.Go

/-! ### The shortest decimal exists -/

/-- A way to print that can always be read: all the decimals. -/
def allDecimals (q : ℚ) : Str := formatF (Nat.log2 q.den + 1) q

theorem roundDec_exact {p : Nat} {q : ℚ} {m : ℤ} (h : |q| * (10 ^ p : ℕ) = m) : roundDec p q = q := by
  have hp : (0 : ℚ) < (10 ^ p : ℕ) := by positivity
  unfold roundDec
  rw [h, F64.rne_int, ← h]
  split
  · rename_i hq
    rw [abs_of_neg hq]; field_simp
  · rename_i hq
    rw [abs_of_nonneg (not_lt.mp hq)]; field_simp

theorem den_pow2 {q : ℚ} (h : F64.IsF q) : ∃ k, q.den = 2 ^ k := by
  obtain ⟨m, e, _, rfl⟩ := h
  have : ∃ k : Nat, ∃ n : ℤ, (m : ℚ) * F64.pow2 e = n / (2 ^ k : ℕ) := by
    by_cases he : 0 ≤ e
    · refine ⟨0, m * 2 ^ e.toNat, ?_⟩
      unfold F64.pow2
      rw [if_pos he]; push_cast; ring
    · refine ⟨(-e).toNat, m, ?_⟩
      unfold F64.pow2
      rw [if_neg he]; ring
  obtain ⟨k, n, hk⟩ := this
  rw [hk]
  have hd : ((n : ℚ) / (2 ^ k : ℕ)).den ∣ 2 ^ k := by
    have := Rat.den_dvd n ((2 ^ k : ℕ) : ℤ)
    rw [Rat.divInt_eq_div, Int.cast_natCast] at this
    exact_mod_cast this
  obtain ⟨i, _, hi⟩ := (Nat.dvd_prime_pow Nat.prime_two).mp hd
  exact ⟨i, hi⟩

/-- Printing all the decimals keeps strconv's promise, so the hypothesis `Shortest` of the theorems can be met. -/
theorem shortest_allDecimals : Shortest allDecimals := by
  intro q hq
  unfold allDecimals parse64
  rw [parseFloat_formatF]
  have hF : F64.IsF q := by
    obtain ⟨m, e, h1, -, -, h4⟩ := hq
    exact ⟨m, e, h1.le, by rw [h4, F64.pow2_eq]⟩
  obtain ⟨k, hk⟩ := den_pow2 hF
  have hlog : Nat.log2 q.den = k := by rw [hk]; exact Nat.log2_two_pow
  rw [hlog]
  have : roundDec (k + 1) q = q := by
    apply roundDec_exact (m := |q.num| * 10 * 5 ^ k)
    have habs : |q| = (|q.num| : ℤ) / (2 ^ k : ℕ) := by
      conv_lhs => rw [← Rat.num_div_den q]
      rw [abs_div, hk]
      push_cast
      rw [abs_of_pos (show (0:ℚ) < 2 ^ k by positivity)]
    rw [habs]
    push_cast
    rw [pow_succ, show (10 : ℚ) ^ k = 2 ^ k * 5 ^ k by rw [← mul_pow]; norm_num]
    field_simp
  rw [this, F64.rnd64_exact hq]
  have := (F64.fits_iff q).2 (F64.inRange_float hq)
  rw [F64.rnd64_exact hq] at this
  dsimp only
  rw [if_pos this]

/-! ### Form -/

theorem enc_texts (o : Option (List Str)) : (sliceC strC).enc o = some (texts o) := by
  cases o with
  | none => rfl
  | some l =>
    have : ∀ l : List Str, encList strC l = some (l.map .str) := by
      intro l
      induction l with
      | nil => rfl
      | cons a l ih => simp only [encList, ih]; rfl
    simp [sliceC, this, texts]

theorem enc_text (o : Option Str) : (ptrC strC).enc o = some (textOrNull o) := by cases o <;> rfl

theorem enc_coords (n : Nat) (short : ℚ → Str) (l : List ℚ) :
    (arrayC n (floatC short)).enc l = some (coords short l) := by
  have : ∀ l : List ℚ, encList (floatC short) l = some (l.map fun q => .num (short q)) := by
    intro l
    induction l with
    | nil => rfl
    | cons a l ih => simp only [encList, ih]; rfl
  simp [arrayC, this, coords]

theorem enc_textMap (o : Option (List (Str × Str))) : (mapC strC).enc o = some (textMap o) := by
  cases o with
  | none => rfl
  | some l =>
    have : ∀ l : List (Str × Str), encMap strC l = some (l.map fun e => (e.1, .str e.2)) := by
      intro l
      induction l with
      | nil => rfl
      | cons a l ih => simp only [encMap, ih]; rfl
    simp [mapC, this, textMap]

theorem enc_cons_always {α β : Type} {k : Str} {c : Codec α} {r : Rec β} {a : α} {b : β} {j : J} {ms : List (Str × J)}
    (h : c.enc a = some j) (hr : r.encAll b = some ms) : (Rec.cons k false c r).encAll (a, b) = some ((k, j) :: ms) := by
  simp [Rec.encAll, h, hr]

theorem enc_cons_omit {α β : Type} {k : String} {c : Codec α} {r : Rec β} {a : α} {b : β} {j : J} {ms : List (Str × J)}
    (h : c.enc a = some j) (hr : r.encAll b = some ms) :
    (Rec.cons k.toList true c r).encAll (a, b) = some (leaveOut (c.empty a) k j ++ ms) := by
  unfold leaveOut
  by_cases he : c.empty a = true
  · simp [Rec.encAll, hr, he]
  · simp [Rec.encAll, h, hr, he]

theorem struct_doc {β α : Type} {r : Rec β} {split : α → β} {join : β → α} {v : α} {ms : List (Str × J)}
    (h : r.encAll (split v) = some ms) : ((structC r).iso split join).enc v = some (.obj ms) := by
  simp [Codec.iso, structC, h]

theorem enc_nil : Rec.nil.encAll () = some [] := rfl

theorem doc_vectorLayer (v : VectorLayer) : vectorLayerC.enc v = some (vectorLayerDoc v) := by
  refine Eq.trans (struct_doc (r := vectorLayerR) (v := v) (by
    unfold vectorLayerR
    exact enc_cons_always (a := v.version) rfl <| enc_cons_always (a := v.extent) rfl <|
      enc_cons_always (a := v.id) rfl <| enc_cons_always (a := v.source) rfl <| enc_cons_always (a := v.name) rfl <|
      enc_cons_always (enc_textMap v.fields) <| enc_cons_omit (enc_texts v.featureTags) <|
      enc_cons_omit (a := v.geometryType) rfl <| enc_cons_always (a := v.minZoom) rfl <|
      enc_cons_always (a := v.maxZoom) rfl <| enc_cons_always (enc_texts v.tiles) enc_nil)) ?_
  simp only [vectorLayerDoc, mem, number, List.cons_append, List.nil_append, List.append_assoc]
  cases v.featureTags <;> rfl

theorem enc_layers (o : Option (List VectorLayer)) : (sliceC vectorLayerC).enc o = some (layersDoc o) := by
  cases o with
  | none => rfl
  | some l =>
    have : ∀ l : List VectorLayer, encList vectorLayerC l = some (l.map vectorLayerDoc) := by
      intro l
      induction l with
      | nil => rfl
      | cons a l ih => simp only [encList, ih, doc_vectorLayer, List.map_cons]
    simp [sliceC, this, layersDoc]

/-- **C94.** The document written for a `TileJSON` is the TileJSON document: these members with these names in this order,
nil texts and lists as null, and no `vector_layers` when there are none. -/
theorem C94_tilejson_form (short : ℚ → Str) (t : TileJSON) :
    (tileJSONC short).write t = some (tileJSONDoc short t) := by
  refine Eq.trans (struct_doc (r := tileJSONR short) (v := t) (by
    unfold tileJSONR
    exact enc_cons_always (a := t.id) rfl <| enc_cons_always (enc_text t.attribution) <|
      enc_cons_always (enc_coords 4 short t.bounds) <| enc_cons_always (enc_coords 3 short t.center) <|
      enc_cons_always (a := t.format) rfl <| enc_cons_always (a := t.minZoom) rfl <| enc_cons_always (a := t.maxZoom) rfl <|
      enc_cons_always (enc_text t.name) <| enc_cons_always (enc_text t.description) <| enc_cons_always (a := t.scheme) rfl <|
      enc_cons_always (a := t.tileJSON) rfl <| enc_cons_always (enc_texts t.tiles) <| enc_cons_always (enc_texts t.grids) <|
      enc_cons_always (enc_texts t.data) <| enc_cons_always (a := t.version) rfl <| enc_cons_always (enc_text t.template) <|
      enc_cons_always (enc_text t.legend) <| enc_cons_omit (enc_layers t.vectorLayers) <|
      enc_cons_always (a := t.type) rfl <| enc_cons_always (a := t.tileSize) rfl enc_nil)) ?_
  simp only [tileJSONDoc, mem, number, List.cons_append, List.nil_append]
  cases t.vectorLayers <;> rfl

theorem doc_recipeLayer (l : RecipeLayer) : recipeLayerC.enc l = some (recipeLayerDoc l) := rfl

/-- **C94.** The document written for a recipe. -/
theorem C94_recipe_form (r : Recipe) : recipeC.write r = some (recipeDoc r) := by
  have hm : (mapC recipeLayerC).enc r.layers = some (match r.layers with
      | none => .null
      | some m => .obj (m.map fun e => (e.1, recipeLayerDoc e.2))) := by
    cases r.layers with
    | none => rfl
    | some l =>
      have : ∀ l : List (Str × RecipeLayer), encMap recipeLayerC l = some (l.map fun e => (e.1, recipeLayerDoc e.2)) := by
        intro l
        induction l with
        | nil => rfl
        | cons a l ih => simp only [encMap, ih, doc_recipeLayer, List.map_cons]
      simp [mapC, this]
  refine Eq.trans (struct_doc (r := recipeR) (v := r) (by
    unfold recipeR
    exact enc_cons_always (a := r.version) rfl <| enc_cons_always hm enc_nil)) ?_
  rfl

/-! ### Documents of others -/

theorem gather_congr : ∀ {β : Type} (r : Rec β) (v : β) (ms ms' : List (Str × J)),
    (∀ k ∈ r.keys, valuesOf k ms = valuesOf k ms') → r.gather v ms = r.gather v ms'
  | _, .nil, _, _, _, _ => rfl
  | _, .cons k om c r, v, ms, ms', h => by
    simp only [Rec.gather]
    rw [h k (by simp [Rec.keys]), gather_congr r v.2 ms ms' (fun k' hk => h k' (by simp [Rec.keys, hk]))]

theorem struct_read {β α : Type} {r : Rec β} (hd : r.Distinct) {split : α → β} {join : β → α} {ms ms' : List (Str × J)}
    (h : ∀ k ∈ r.keys, valuesOf k ms = valuesOf k ms') :
    ((structC r).iso split join).read (.obj ms) = ((structC r).iso split join).read (.obj ms') := by
  unfold Codec.read
  simp only [Codec.iso, structC, members_gather r hd, gather_congr r _ ms ms' h]

theorem perm_short {α : Type} : ∀ {l l' : List α}, l.Perm l' → l.length ≤ 1 → l = l'
  | [], _, h, _ => h.symm.eq_nil.symm
  | [_], _, h, _ => (List.singleton_perm.mp h)
  | _ :: _ :: _, _, _, h => by simp at h

theorem nodup_const {α β : Type} {f : α → β} {x : β} : ∀ {l : List α}, (∀ a ∈ l, f a = x) → (l.map f).Nodup → l.length ≤ 1
  | [], _, _ => by simp
  | [_], _, _ => by simp
  | a :: b :: l, h, hn => by
    have ha := h a (by simp)
    have hb := h b (by simp)
    simp [ha, hb] at hn

theorem valuesOf_perm {k : Str} {ms ms' : List (Str × J)} (h : ms.Perm ms') (hn : (ms.map fun m => fold m.1).Nodup) :
    valuesOf k ms = valuesOf k ms' := by
  unfold valuesOf
  rw [perm_short (h.filter _) (nodup_const (f := fun m : Str × J => fold m.1) (x := fold k) ?_ ?_)]
  · intro m hm
    have := (List.mem_filter.mp hm).2
    simpa using (by simpa using this : fold k = fold m.1).symm
  · exact hn.sublist (List.filter_sublist.map _)

theorem foldChar_toLower (c : Char) : foldChar c.toLower = foldChar c := by
  by_cases h : 'A' ≤ c ∧ c ≤ 'Z'
  · have h1 : 65 ≤ c.toNat := h.1
    have h2 : c.toNat ≤ 90 := h.2
    have hc : c = Char.ofNat c.toNat := by simp
    generalize c.toNat = n at *
    subst hc
    interval_cases n <;> decide
  · have : c.toLower = c := by
      unfold Char.toLower
      rw [dif_neg]
      exact fun hc => h ⟨hc.1, hc.2⟩
    rw [this]

theorem fold_of_lower {k k' : Str} (h : k.map Char.toLower = k'.map Char.toLower) : fold k = fold k' := by
  have : ∀ s : Str, fold s = fold (s.map Char.toLower) := by
    intro s
    unfold fold
    rw [List.map_map]
    apply List.map_congr_left
    intro c _
    exact (foldChar_toLower c).symm
  rw [this k, this k', h]

theorem lenient {β α : Type} {r : Rec β} (hd : r.Distinct) {names : List String} (hn : r.keys = names.map String.toList)
    (split : α → β) (join : β → α) : Lenient names ((structC r).iso split join) := by
  refine ⟨?_, ?_, ?_⟩
  · intro ms ms' hp hnd
    exact struct_read hd fun k _ => valuesOf_perm hp hnd
  · intro a b k j hk
    apply struct_read hd
    intro k' hk'
    rw [valuesOf_append, valuesOf_append, valuesOf_cons, if_neg]
    rw [hn, List.mem_map] at hk'
    obtain ⟨n, hmem, rfl⟩ := hk'
    exact hk n hmem
  · intro a b k k' j hk
    apply struct_read hd
    intro k'' _
    rw [valuesOf_append, valuesOf_append, valuesOf_cons, valuesOf_cons, fold_of_lower hk]

/-- **C94.** Reading a document of any of the types does not depend on the order of its members, ignores members with other
names, and does not mind upper case letters in names. -/
theorem C94_lenient (short : ℚ → Str) (addr : Bool) :
    Lenient tileJSONNames (tileJSONC short) ∧
    Lenient ["version", "extent", "id", "source", "source_name", "fields", "feature_tags", "geometry_type", "minzoom",
      "maxzoom", "tiles"] vectorLayerC ∧
    Lenient ["type", "center", "created", "description", "filesize", "id", "modified", "name", "visibility", "status"]
      (tilesetC short) ∧
    Lenient ["version", "name", "created", "id", "modified", "owner"] listStyleC ∧
    Lenient ["version", "layers"] recipeC ∧
    Lenient ["source", "minzoom", "maxzoom"] recipeLayerC ∧
    Lenient ["id", "name", "codepoints"] languageC ∧
    Lenient ["exemplarCharacters", "auxiliary", "index", "punctuation"] codePointsC ∧
    Lenient ["name", "id", "total", "count", "coverages"] coverageC ∧
    Lenient ["vector_layers", "tilestats"] (layerDataC short) ∧
    Lenient ["id", "fields", "description", "minzoom", "maxzoom"] (mbLayerC short) ∧
    Lenient ["layerCount", "layers"] (tileStatsC short) ∧
    Lenient ["layer", "count", "geometry", "attributeCount", "attributes"] (statLayerC short) ∧
    Lenient ["attribute", "count", "type", "values"] (attributeC short) ∧
    Lenient ["name", "format", "bounds", "center", "minzoom", "maxzoom", "description", "version", "type", "attribution",
      "json", "directory_layout", "origin", "srs", "bounds_srs", "res_factor", "tile_size"] (metadataC short addr) :=
  ⟨lenient (tileJSON_distinct short) rfl _ _, lenient vectorLayer_distinct rfl _ _, lenient (tileset_distinct short) rfl _ _,
    lenient listStyle_distinct rfl _ _, lenient recipe_distinct rfl _ _, lenient recipeLayer_distinct rfl _ _,
    lenient language_distinct rfl _ _, lenient codePoints_distinct rfl _ _, lenient coverage_distinct rfl _ _,
    lenient (layerData_distinct short) rfl _ _, lenient (mbLayer_distinct short) rfl _ _,
    lenient (tileStats_distinct short) rfl _ _, lenient (statLayer_distinct short) rfl _ _,
    lenient (attribute_distinct short) rfl _ _, lenient (metadata_distinct short addr) rfl _ _⟩


/-! ### Errors, null, repeated names -/

theorem decAll_append {α : Type} (c : Codec α) : ∀ (a : α) (l l' : List J),
    decAll c a (l ++ l') = ((decAll c (decAll c a l).1 l').1, (decAll c a l).2 && (decAll c (decAll c a l).1 l').2)
  | a, [], l' => by simp [decAll]
  | a, j :: l, l' => by
    simp only [List.cons_append, decAll]
    rw [decAll_append c (c.dec a j).1 l l']
    simp [Bool.and_assoc]

/-- A value that is refused whatever the variable holds. -/
def Refused {α : Type} (c : Codec α) (j : J) : Prop := ∀ old, (c.dec old j).2 = false

theorem decAll_refused {α : Type} {c : Codec α} {j : J} (h : Refused c j) : ∀ (a : α) (l : List J), j ∈ l →
    (decAll c a l).2 = false
  | _, [], hm => by simp at hm
  | a, j' :: l, hm => by
    simp only [decAll]
    rcases List.mem_cons.mp hm with rfl | hm
    · rw [h a]; rfl
    · rw [decAll_refused h _ l hm]; simp

/-- Some field refuses the value of a member with its name. -/
def Rec.Refuses : {β : Type} → Rec β → Str → J → Prop
  | _, .nil, _, _ => False
  | _, .cons k' _ c r, k, j => (k' = k ∧ Refused c j) ∨ r.Refuses k j

theorem gather_refused : ∀ {β : Type} (r : Rec β) (v : β) (ms : List (Str × J)) (k : Str) (m : Str × J), m ∈ ms →
    fold m.1 = fold k → r.Refuses k m.2 → (r.gather v ms).2 = false
  | _, .nil, _, _, _, _, _, _, h => h.elim
  | _, .cons k' om c r, v, ms, k, m, hm, hf, h => by
    simp only [Rec.gather]
    rcases h with ⟨rfl, h⟩ | h
    · have hmem : m.2 ∈ valuesOf k' ms := by
        unfold valuesOf
        exact List.mem_map_of_mem (List.mem_filter.mpr ⟨hm, by simp [hf]⟩)
      rw [decAll_refused h _ _ hmem]; rfl
    · rw [gather_refused r v.2 ms k m hm hf h]; simp

theorem read_refused {β α : Type} {r : Rec β} (hd : r.Distinct) {split : α → β} {join : β → α} {ms : List (Str × J)}
    {k : Str} {m : Str × J} (hm : m ∈ ms) (hf : fold m.1 = fold k) (h : r.Refuses k m.2) :
    ((structC r).iso split join).read (.obj ms) = none := by
  unfold Codec.read
  simp only [Codec.iso, structC, members_gather r hd]
  rw [if_neg]
  rw [gather_refused r _ ms k m hm hf h]
  simp

/-- Not a text and not null. -/
def NotText : J → Prop
  | .str _ => False
  | .null => False
  | _ => True

/-- Not null and not the literal of a whole number from 0 up to the limit. -/
def NotBelow (limit : Nat) : J → Prop
  | .num l => ∀ n, n < limit → parseUint l 10 ≠ .ok n
  | .null => False
  | _ => True

theorem refused_str {j : J} (h : NotText j) : Refused strC j := by
  intro old
  cases j <;> simp_all [strC, NotText]

theorem refused_uint {bits : Nat} {j : J} (h : NotBelow (2 ^ bits) j) : Refused (uintC bits) j := by
  intro old
  cases j with
  | num l =>
    simp only [NotBelow] at h
    simp only [uintC]
    split
    · rename_i n hn
      rw [if_neg (fun hlt => h n hlt hn)]
    · rfl
  | null => simp [NotBelow] at h
  | _ => rfl

/-- **C94.** A document in which a zoom is not a whole number from 0 to 2⁶⁴-1 (negative, fractional, a text, a list), or the
tile size one below 2³², or a name of the format or scheme is not a text, makes `GetTileJSON` return an error and the zero
`TileJSON`, whatever else the document says.  (`null` leaves the field at zero.) -/
theorem C94_type_errors (short : ℚ → Str) (ms : List (Str × J)) (k : Str) (j : J) (hm : (k, j) ∈ ms)
    (h : (fold k = fold "minzoom".toList ∧ NotBelow (2 ^ 64) j) ∨ (fold k = fold "maxzoom".toList ∧ NotBelow (2 ^ 64) j) ∨
      (fold k = fold "tileSize".toList ∧ NotBelow (2 ^ 32) j) ∨ (fold k = fold "format".toList ∧ NotText j) ∨
      (fold k = fold "scheme".toList ∧ NotText j) ∨ (fold k = fold "id".toList ∧ NotText j)) :
    getTileJSON short (.obj ms) = ((tileJSONC short).zero, false) := by
  have key : ∀ k', fold k = fold k' → (tileJSONR short).Refuses k' j → (tileJSONC short).read (.obj ms) = none :=
    fun k' hf hr => read_refused (tileJSON_distinct short) hm hf hr
  have : (tileJSONC short).read (.obj ms) = none := by
    rcases h with ⟨hf, h⟩ | ⟨hf, h⟩ | ⟨hf, h⟩ | ⟨hf, h⟩ | ⟨hf, h⟩ | ⟨hf, h⟩
    · exact key _ hf (.inr <| .inr <| .inr <| .inr <| .inr <| .inl ⟨rfl, refused_uint h⟩)
    · exact key _ hf (.inr <| .inr <| .inr <| .inr <| .inr <| .inr <| .inl ⟨rfl, refused_uint h⟩)
    · exact key _ hf (.inr <| .inr <| .inr <| .inr <| .inr <| .inr <| .inr <| .inr <| .inr <| .inr <| .inr <| .inr <| .inr <|
        .inr <| .inr <| .inr <| .inr <| .inr <| .inr <| .inl ⟨rfl, refused_uint h⟩)
    · exact key _ hf (.inr <| .inr <| .inr <| .inr <| .inl ⟨rfl, refused_str h⟩)
    · exact key _ hf (.inr <| .inr <| .inr <| .inr <| .inr <| .inr <| .inr <| .inr <| .inr <| .inl ⟨rfl, refused_str h⟩)
    · exact key _ hf (.inl ⟨rfl, refused_str h⟩)
  unfold getTileJSON
  rw [this]

/-- **C94.** The document `null` — and the empty object — is read as the zero `TileJSON` without an error; anything that is
neither null nor an object is an error. -/
theorem C94_null (short : ℚ → Str) (j : J) :
    getTileJSON short .null = ((tileJSONC short).zero, true) ∧ getTileJSON short (.obj []) = ((tileJSONC short).zero, true) ∧
    (j ≠ .null → (∀ ms, j ≠ .obj ms) → getTileJSON short j = ((tileJSONC short).zero, false)) := by
  refine ⟨rfl, rfl, ?_⟩
  intro h1 h2
  cases j with
  | null => exact absurd rfl h1
  | obj ms => exact absurd rfl (h2 ms)
  | _ => rfl

theorem read_some {β α : Type} {r : Rec β} (hd : r.Distinct) {split : α → β} {join : β → α}
    (hz : split (join r.zero) = r.zero) {ms : List (Str × J)} {t : α}
    (h : ((structC r).iso split join).read (.obj ms) = some t) :
    t = join (r.gather r.zero ms).1 ∧ (r.gather r.zero ms).2 = true := by
  unfold Codec.read at h
  simp only [Codec.iso, structC, members_gather r hd, hz] at h
  split at h
  · rename_i h2
    exact ⟨(Option.some.inj h).symm, h2⟩
  · cases h

theorem gather_snd_true : ∀ {β : Type} (r : Rec β) (v : β) (ms : List (Str × J)) (k : Str) (m : Str × J), m ∈ ms →
    fold m.1 = fold k → (r.gather v ms).2 = true → ¬ r.Refuses k m.2 :=
  fun r v ms k m hm hf h hr => by rw [gather_refused r v ms k m hm hf hr] at h; simp at h

theorem lastText_eq (name : String) : ∀ (ms : List (Str × J)) (a : Str),
    (decAll strC a (valuesOf name.toList ms)).1 = ms.foldl (fun acc m =>
      if fold m.1 = fold name.toList then
        match m.2 with
        | .str s => s
        | _ => acc
      else acc) a
  | [], a => rfl
  | m :: ms, a => by
    rw [valuesOf_cons, List.foldl_cons]
    by_cases h : fold name.toList = fold m.1
    · rw [if_pos h, if_pos h.symm]
      simp only [decAll]
      rw [lastText_eq name ms]
      congr 1
      cases m.2 <;> rfl
    · rw [if_neg h, if_neg (fun h' => h h'.symm)]
      exact lastText_eq name ms a

theorem lastNumber_eq (name : String) (bits : Nat) : ∀ (ms : List (Str × J)) (a : Nat),
    (decAll (uintC bits) a (valuesOf name.toList ms)).2 = true →
    (decAll (uintC bits) a (valuesOf name.toList ms)).1 = ms.foldl (fun acc m =>
      if fold m.1 = fold name.toList then
        match m.2 with
        | .num l => (parseUint l 10).toOption.getD acc
        | _ => acc
      else acc) a
  | [], a, _ => rfl
  | m :: ms, a, hok => by
    rw [valuesOf_cons] at hok ⊢
    rw [List.foldl_cons]
    by_cases h : fold name.toList = fold m.1
    · rw [if_pos h] at hok
      rw [if_pos h, if_pos h.symm]
      simp only [decAll, Bool.and_eq_true] at hok ⊢
      rw [lastNumber_eq name bits ms _ hok.2]
      congr 1
      have h1 := hok.1
      cases hj : m.2 with
      | num l =>
        rw [hj] at h1
        simp only [uintC] at h1 ⊢
        cases hp : parseUint l 10 with
        | error e => rw [hp] at h1; simp at h1
        | ok n =>
          rw [hp] at h1
          simp only at h1 ⊢
          by_cases hn : n < 2 ^ bits
          · rw [if_pos hn]; rfl
          · rw [if_neg hn] at h1; simp at h1
      | _ => rfl
    · rw [if_neg h] at hok
      rw [if_neg h, if_neg (fun h' => h h'.symm)]
      exact lastNumber_eq name bits ms a hok

/-- **C94.** What `GetTileJSON` takes from any document it accepts — members in any order, repeated, in any case, mixed with
others: each text and each number is the last one given under its name, and is empty or zero if there is none. -/
theorem C94_fields (short : ℚ → Str) (ms : List (Str × J)) (t : TileJSON) (h : getTileJSON short (.obj ms) = (t, true)) :
    t.id = lastText "id" ms ∧ t.format = lastText "format" ms ∧ t.scheme = lastText "scheme" ms ∧
    t.tileJSON = lastText "tilejson" ms ∧ t.version = lastText "version" ms ∧ t.type = lastText "type" ms ∧
    t.minZoom = lastNumber "minzoom" ms ∧ t.maxZoom = lastNumber "maxzoom" ms ∧ t.tileSize = lastNumber "tileSize" ms := by
  have hr : (tileJSONC short).read (.obj ms) = some t := by
    unfold getTileJSON at h
    cases hq : (tileJSONC short).read (.obj ms) with
    | none => rw [hq] at h; simp at h
    | some t' => rw [hq] at h; simp at h; rw [h]
  obtain ⟨h1, h2⟩ := read_some (tileJSON_distinct short) rfl hr
  simp only [tileJSONR, Rec.gather, Rec.zero, Bool.and_eq_true] at h2
  obtain ⟨-, -, -, -, -, hmin, hmax, -, -, -, -, -, -, -, -, -, -, -, -, hsize, -⟩ := h2
  have hmin := lastNumber_eq "minzoom" 64 ms 0 hmin
  have hmax := lastNumber_eq "maxzoom" 64 ms 0 hmax
  have hsize := lastNumber_eq "tileSize" 32 ms 0 hsize
  have htext := fun n => lastText_eq n ms []
  subst h1
  exact ⟨htext _, htext _, htext _, htext _, htext _, htext _, hmin, hmax, hsize⟩

/-- The fields can be written. -/
def Rec.Enc : {β : Type} → Rec β → β → Prop
  | _, .nil, _ => True
  | _, .cons _ _ c r, v => (∃ j, c.enc v.1 = some j) ∧ r.Enc v.2

/-- A member that is written. -/
def Rec.Writes : {β : Type} → Rec β → β → Str → J → Prop
  | _, .nil, _, _, _ => False
  | _, .cons k' om c r, v, k, j => (k' = k ∧ (om && c.empty v.1) = false ∧ c.enc v.1 = some j) ∨ r.Writes v.2 k j

theorem encAll_writes : ∀ {β : Type} (r : Rec β) (v : β), r.Enc v →
    ∃ ms, r.encAll v = some ms ∧ ∀ k j, r.Writes v k j → (k, j) ∈ ms
  | _, .nil, _, _ => ⟨[], rfl, fun _ _ h => h.elim⟩
  | _, .cons k' om c r, v, h => by
    obtain ⟨⟨j', h1⟩, h2⟩ := h
    obtain ⟨ms, h3, h4⟩ := encAll_writes r v.2 h2
    simp only [Rec.encAll, h1, h3]
    by_cases ho : (om && c.empty v.1) = true
    · rw [if_pos ho]
      refine ⟨ms, rfl, ?_⟩
      rintro k j (⟨_, h5, _⟩ | h5)
      · rw [ho] at h5; cases h5
      · exact h4 k j h5
    · rw [if_neg ho]
      refine ⟨_, rfl, ?_⟩
      rintro k j (⟨rfl, _, h5⟩ | h5)
      · rw [h1] at h5; cases h5; simp
      · exact List.mem_cons_of_mem _ (h4 k j h5)

theorem layerType_decAll : ∀ (a : Int) (l : List J), decAll (layerTypeC true) a l = decAll (layerTypeC false) a l
  | _, [] => rfl
  | a, j :: l => by
    have h : (layerTypeC true).dec a j = (layerTypeC false).dec a j := by cases j <;> rfl
    simp only [decAll]
    rw [h, layerType_decAll]

theorem metadata_dec (short : ℚ → Str) (v : Metadata) (j : J) :
    (metadataC short true).dec v j = (metadataC short false).dec v j := by
  cases j with
  | obj ms =>
    simp only [metadataC, Codec.iso, structC]
    rw [members_gather _ (metadata_distinct short true), members_gather _ (metadata_distinct short false)]
    simp only [metadataR, Rec.gather, layerType_decAll]
  | _ => rfl

/-- **C94.** Metadata marshalled by value (not through a pointer): the type `overlay` is written as the number 1 and the
document is refused when read; the type `baselayer` is left out and everything is read back. -/
theorem C94_metadata_by_value {short : ℚ → Str} (hs : Shortest short) (m : Metadata) (h : m.Valid) :
    ∃ doc, (metadataC short false).write m = some doc ∧
      (metadataC short true).read doc = if m.type = 1 then none else some m.back := by
  by_cases ht : m.type = 1
  · have hld : ∃ j, (ptrC (layerDataC short)).enc m.layerData = some j := by
      obtain ⟨j, hj, _⟩ := back_ptr (f := LayerData.back) fun d hd => back_layerData hs (h.layerData d hd)
      exact ⟨j, hj⟩
    have hts : ∃ j, (ptrC (arrayC 2 intC)).enc m.tileSize = some j := by
      obtain ⟨j, hj, _⟩ := back_ptr (f := id) fun l hl =>
        back_array (h.tileSize l hl).1 fun n hn => (back_int ((h.tileSize l hl).2 n hn)).back
      exact ⟨j, hj⟩
    obtain ⟨ms, h1, h2⟩ := encAll_writes (metadataR short false)
      (m.name, m.format, m.bounds, m.center, m.minZoom, m.maxZoom, m.description, m.version, m.type, m.attribution,
        m.layerData, m.directoryLayout, m.origin, m.srs, m.boundsSrs, m.resFactor, m.tileSize, ())
      ⟨⟨_, rfl⟩, ⟨_, rfl⟩, ⟨_, enc_coords _ _ _⟩, ⟨_, enc_coords _ _ _⟩, ⟨_, rfl⟩, ⟨_, rfl⟩, ⟨_, rfl⟩, ⟨_, rfl⟩, ⟨_, rfl⟩, ⟨_, rfl⟩,
        hld, ⟨_, rfl⟩, ⟨_, rfl⟩, ⟨_, rfl⟩, ⟨_, rfl⟩, ⟨_, rfl⟩, hts, trivial⟩
    refine ⟨.obj ms, struct_doc h1, ?_⟩
    rw [if_pos ht]
    refine read_refused (metadata_distinct short true) (k := "type".toList) (m := ("type".toList, .num (itoa m.type)))
      (h2 _ _ ?_) rfl ?_
    · refine .inr <| .inr <| .inr <| .inr <| .inr <| .inr <| .inr <| .inr <| .inl ⟨rfl, ?_, rfl⟩
      simp only [layerTypeC, ht]; rfl
    · exact .inr <| .inr <| .inr <| .inr <| .inr <| .inr <| .inr <| .inr <| .inl ⟨rfl, fun _ => rfl⟩
  · have h0 : m.type = 0 := by rcases h.type with h | h <;> [exact h; exact absurd h ht]
    obtain ⟨j, h1, _, h3⟩ := back_metadata hs h false (fun h' => absurd h0 h')
    refine ⟨j, h1, ?_⟩
    rw [if_neg ht]
    unfold Codec.read
    rw [metadata_dec, show (metadataC short true).zero = (metadataC short false).zero from rfl, h3]
    rfl

theorem parseUFloat_nat (n : Nat) : parseUFloat (Nat.toDigits 10 n) = some (n : ℚ) := by
  have h1 := spanDigits_run (Nat.toDigits 10 n) [] (fun c hc => toDigits_isDigit hc) (by simp)
  rw [List.append_nil] at h1
  simp only [parseUFloat, h1]
  rw [if_neg (by simp [toDigits_ne_nil])]
  simp [parseExp, digitsVal_toDigits]

theorem parseFloat_itoa (rnd : ℚ → ℚ) (n : Int) : parseFloat rnd (itoa n) = some (rnd n) := by
  unfold itoa parseFloat
  split
  · rename_i hn
    simp only [spanSign, parseUFloat_nat, if_true]
    congr 2
    have : (n : ℚ) = -((n.natAbs : ℤ) : ℚ) := by rw [← Int.cast_neg]; congr 1; omega
    rw [this]; simp
  · rename_i hn
    rw [spanSign_of_digit (by
      intro c hc
      exact toDigits_isDigit (List.mem_of_mem_head? hc))]
    simp only [parseUFloat_nat]
    rw [if_neg (by simp)]
    congr 2
    have : (n : ℚ) = ((n.natAbs : ℤ) : ℚ) := by congr 1; omega
    rw [this]; simp

/-- **C94.** A Go integer in an `interface{}` (a field of a layer, a value of an attribute, the resolution factor) comes back
as the nearest float64; below 2⁵³ it is the same number. -/
theorem C94_integers (short : ℚ → Str) (n : Int) (h : IsI64 n) :
    ∃ doc q, (anyC short).write (.int n) = some doc ∧ (anyC short).read doc = some (.num q) ∧ Nearest64 n q ∧
      (|n| < 2 ^ 53 → q = n) := by
  have hr : InRange n := by
    unfold InRange
    have h1 : |(n : ℚ)| ≤ F64.pow2 63 := by
      rw [F64.pow2_eq]
      have : |n| ≤ 2 ^ 63 := by unfold IsI64 at h; rw [abs_le]; constructor <;> omega
      exact_mod_cast this
    have h2 : F64.pow2 63 < F64.pow2 970 := F64.pow2_lt_iff.2 (by norm_num)
    have h3 : F64.pow2 971 = 2 * F64.pow2 970 := by rw [show (971 : ℤ) = 1 + 970 from rfl, F64.pow2_add]; congr 1
    have h4 : F64.pow2 971 ≤ F64.pow2 1024 := F64.pow2_le (by norm_num)
    rw [← F64.pow2_eq, ← F64.pow2_eq]
    linarith
  refine ⟨.num (itoa n), F64.rnd64 n, by simp [anyC, Codec.write, Dyn.enc], ?_, F64.nearest64 hr, fun h1 => ?_⟩
  · have : parse64 (itoa n) = some (F64.rnd64 n) := by
      unfold parse64
      rw [parseFloat_itoa]
      dsimp only
      rw [if_pos ((F64.fits_iff _).2 hr)]
    simp [Codec.read, anyC, Dyn.dec, this]
  · exact F64.rnd64_exact ⟨n, 0, h1, by norm_num, by norm_num, by simp⟩

/-! ### Examples -/

/-- A layer with a field and tags. -/
def demoLayer : VectorLayer :=
  ⟨2, 4096, "roads".toList, "osm".toList, "roads".toList, some [("class".toList, "String".toList), ("lanes".toList, "Number".toList)],
    some ["a".toList], "line".toList, 4, 14, none⟩

/-- A tileset with a layer and fractional bounds. -/
def demo : TileJSON :=
  ⟨"x".toList, some "©".toList, [-180, -85/2, 180, 85/2], [1/4, 0, 3], "pbf".toList, 0, 14, some "n".toList, none, "xyz".toList,
    "2.2.0".toList, some ["http://a/{z}/{x}/{y}".toList], none, some [], "1".toList, none, none, some [demoLayer], "vector".toList, 512⟩

theorem demoLayer_valid : demoLayer.Valid := by
  refine ⟨by unfold IsI64 demoLayer; simp, by unfold IsI64 demoLayer; simp, by unfold U64 demoLayer; simp,
    by unfold U64 demoLayer; simp, ?_⟩
  intro m hm
  cases hm
  unfold Sorted
  decide +kernel

theorem float_of {q : ℚ} (m e : ℤ) (h : |m| < 2 ^ 53) (hq : q = m * F64.pow2 e) (he : -1074 ≤ e := by norm_num)
    (he' : e ≤ 971 := by norm_num) : Float64 q :=
  ⟨m, e, h, he, he', by rw [hq, F64.pow2_eq]⟩

theorem demo_valid : demo.Valid := by
  have f1 : Float64 (-180) := float_of (-180) 0 (by norm_num) (by norm_num [F64.pow2])
  have f2 : Float64 (-85 / 2) := float_of (-85) (-1) (by norm_num) (by norm_num [F64.pow2])
  have f3 : Float64 180 := float_of 180 0 (by norm_num) (by norm_num [F64.pow2])
  have f4 : Float64 (85 / 2) := float_of 85 (-1) (by norm_num) (by norm_num [F64.pow2])
  have f5 : Float64 (1 / 4) := float_of 1 (-2) (by norm_num) (by norm_num [F64.pow2, show Int.toNat 2 = 2 from rfl])
  have f6 : Float64 0 := float_of 0 0 (by norm_num) (by norm_num [F64.pow2])
  have f7 : Float64 3 := float_of 3 0 (by norm_num) (by norm_num [F64.pow2])
  refine ⟨⟨rfl, ?_⟩, ⟨rfl, ?_⟩, by unfold U64 demo; simp, by unfold U64 demo; simp, by unfold demo; simp, ?_⟩
  · intro q hq
    simp only [demo, List.mem_cons, List.not_mem_nil, or_false] at hq
    rcases hq with rfl | rfl | rfl | rfl <;> assumption
  · intro q hq
    simp only [demo, List.mem_cons, List.not_mem_nil, or_false] at hq
    rcases hq with rfl | rfl | rfl <;> assumption
  · intro l hl v hv
    cases hl
    simp only [List.mem_singleton] at hv
    subst hv
    exact demoLayer_valid

/-- The hypotheses of the TileJSON round trip are met, and nothing is lost. -/
example : ∃ doc, (tileJSONC allDecimals).write demo = some doc ∧ getTileJSON allDecimals doc = (demo, true) :=
  C94_tilejson shortest_allDecimals demo demo_valid

/-- A date in summer, with nanoseconds and a time zone. -/
example : ∃ s, (Time.mk 2024 2 29 13 5 0 120000000 (-210)).text = some s ∧
    s = "2024-02-29T13:05:00.12-03:30".toList ∧ parseTime s = some ⟨2024, 2, 29, 13, 5, 0, 120000000, -210⟩ := by
  refine ⟨_, rfl, by decide +kernel, by decide +kernel⟩

/-- No 29 February in 2023. -/
example : parseTime "2023-02-29T13:05:00Z".toList = none := by decide +kernel

theorem demo_time_valid : (Time.mk 2024 2 29 13 5 0 120000000 (-210)).Valid :=
  ⟨⟨by decide, ⟨by decide, 29, by unfold LastDay LeapYear; simp, by decide⟩, by decide, by decide, by decide, by decide⟩,
    by decide⟩

/-- A page of two tilesets. -/
example : ∃ doc, (sliceC (tilesetC allDecimals)).write (some [⟨"vector".toList, [0, 0, 0], ⟨2024, 2, 29, 13, 5, 0, 120000000, -210⟩,
      [], 12, "a.b".toList, ⟨2024, 2, 29, 13, 5, 0, 120000000, -210⟩, "n".toList, "public".toList, []⟩]) = some doc ∧
    tilesetPage allDecimals doc = some (some [⟨"vector".toList, [0, 0, 0], ⟨2024, 2, 29, 13, 5, 0, 120000000, -210⟩,
      [], 12, "a.b".toList, ⟨2024, 2, 29, 13, 5, 0, 120000000, -210⟩, "n".toList, "public".toList, []⟩]) := by
  apply C94_tilesets shortest_allDecimals
  intro l hl t ht
  cases hl
  simp only [List.mem_singleton] at ht
  subst ht
  refine ⟨⟨rfl, ?_⟩, demo_time_valid, demo_time_valid, by unfold IsI64; simp⟩
  intro q hq
  simp only [List.mem_cons, List.not_mem_nil, or_false, or_self] at hq
  subst hq
  exact float_of 0 0 (by norm_num) (by norm_num [F64.pow2])

/-- Metadata of an overlay: valid, so it is refused when marshalled by value and kept when marshalled through a pointer. -/
def demoMeta : Metadata :=
  ⟨"m".toList, 1, [0, 0, 0, 0], [0, 0, 0], 0, 5, [], [], 1, [],
    some ⟨some (some [⟨"l".toList, some [("a".toList, .num 1), ("b".toList, .list [.nil, .str []])], [], 0, 3⟩]),
      some ⟨1, some [⟨"l".toList, 5, "Point".toList, 1, some [⟨"a".toList, 2, "mixed".toList, some [.num 1, .bool true]⟩]⟩]⟩⟩,
    [], [], [], [], .str "sqrt2".toList, some [256, 256]⟩

theorem demoMeta_valid : demoMeta.Valid := by
  have f0 : Float64 0 := float_of 0 0 (by norm_num) (by norm_num [F64.pow2])
  have f1 : Float64 1 := float_of 1 0 (by norm_num) (by norm_num [F64.pow2])
  refine ⟨by decide, ⟨rfl, ?_⟩, ⟨rfl, ?_⟩, by unfold IsI64 demoMeta; simp, by unfold IsI64 demoMeta; simp, .inr rfl, ?_,
    by simp [demoMeta, Dyn.Plain], ?_⟩
  · intro q hq
    simp only [demoMeta, List.mem_cons, List.not_mem_nil, or_false, or_self] at hq
    subst hq; exact f0
  · intro q hq
    simp only [demoMeta, List.mem_cons, List.not_mem_nil, or_false, or_self] at hq
    subst hq; exact f0
  · intro d hd
    cases hd
    refine ⟨?_, ?_⟩
    · intro l hl v hv
      cases hl
      simp only [List.mem_singleton] at hv
      subst hv
      refine ⟨by unfold IsI64; simp, by unfold IsI64; simp, ?_⟩
      intro m hm
      cases hm
      refine ⟨by unfold Sorted; simp only [List.pairwise_cons, List.mem_singleton, forall_eq, List.not_mem_nil,
        false_implies, implies_true, List.Pairwise.nil, and_true]; decide +kernel, ?_⟩
      intro e he
      simp only [List.mem_cons, List.not_mem_nil, or_false] at he
      rcases he with rfl | rfl
      · simpa [Dyn.Plain] using f1
      · simp [Dyn.Plain, Dyn.PlainL]
    · intro t ht
      cases ht
      refine ⟨by unfold IsI64; simp, ?_⟩
      intro ls hls l hl
      cases hls
      simp only [List.mem_singleton] at hl
      subst hl
      refine ⟨by unfold IsI64; simp, by unfold IsI64; simp, ?_⟩
      intro as has a ha
      cases has
      simp only [List.mem_singleton] at ha
      subst ha
      refine ⟨by unfold IsI64; simp, ?_⟩
      intro l hl d hd
      cases hl
      simp only [List.mem_cons, List.not_mem_nil, or_false] at hd
      rcases hd with rfl | rfl
      · simpa [Dyn.Plain] using f1
      · simp [Dyn.Plain]
  · intro l hl
    cases hl
    refine ⟨rfl, ?_⟩
    intro n hn
    simp only [List.mem_cons, List.not_mem_nil, or_false, or_self] at hn
    subst hn
    unfold IsI64; simp

example : ∃ doc, (metadataC allDecimals false).write demoMeta = some doc ∧ (metadataC allDecimals true).read doc = none :=
  C94_metadata_by_value shortest_allDecimals demoMeta demoMeta_valid

example : ∃ doc, (metadataC allDecimals true).write demoMeta = some doc ∧
    (metadataC allDecimals true).read doc = some demoMeta :=
  C94_metadata shortest_allDecimals demoMeta demoMeta_valid

/-- A recipe, languages: the hypotheses are met. -/
example : (Recipe.mk 1 (some [("a".toList, ⟨"s".toList, 0, 5⟩), ("b".toList, ⟨"t".toList, 1, 2⟩)])).Valid := by
  refine ⟨by unfold IsI64; simp, ?_⟩
  intro m hm
  cases hm
  refine ⟨by unfold Sorted; decide +kernel, ?_⟩
  intro e he
  simp only [List.mem_cons, List.not_mem_nil, or_false] at he
  rcases he with rfl | rfl <;> simp [U64]

example : (CodePoints.mk (some [65, 0x10FFFF]) none (some []) (some [33])).Valid := by
  refine ⟨?_, ?_, ?_, ?_⟩ <;> intro l hl n hn <;> cases hl <;> simp_all; omega

/-- A negative zoom is refused. -/
example : getTileJSON allDecimals (.obj [("id".toList, .str "a".toList), ("MinZoom".toList, .num "-1".toList)])
    = ((tileJSONC allDecimals).zero, false) :=
  C94_type_errors allDecimals _ "MinZoom".toList (.num "-1".toList) (by simp) (.inl ⟨by decide +kernel, by
    intro n _ h
    have : parseUint "-1".toList 10 = .error (.syntax, 0) := by decide +kernel
    rw [this] at h
    cases h⟩)

end Verif.Doc
