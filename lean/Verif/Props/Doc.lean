import Verif.Spec.Doc
import Verif.Proof.F64

/-!
# C94: JSON documents
-/
namespace Verif.Doc

open Verif.Go

/-! ### Fields -/

theorem always {b : Bool} {P Q : Prop} (h : Q) : if (false && b) = true then P else Q := by simpa using h

theorem mayOmit {α : Type} {c : Codec α} {v w : α} (h0 : c.empty v = true → w = c.zero) (h : Back c v w) :
    if (true && c.empty v) = true then w = c.zero else Back c v w := by
  split
  · rename_i he; exact h0 (by simpa using he)
  · exact h

theorem mayOmit' {α : Type} {c : Codec α} {v w : α} (h0 : c.empty v = true → w = c.zero)
    (h : c.empty v = false → Back c v w) :
    if (true && c.empty v) = true then w = c.zero else Back c v w := by
  split
  · rename_i he; exact h0 (by simpa using he)
  · rename_i he; exact h (by simpa using he)

theorem andAll {α β : Type} {k : Str} {om : Bool} {c : Codec α} {r : Rec β} {a a' : α} {b b' : β}
    (h : if (om && c.empty a) = true then a' = c.zero else Back c a a') (hr : r.BackAll b b') :
    (Rec.cons k om c r).BackAll (a, b) (a', b') := ⟨h, hr⟩

theorem omit_str (s : Str) : if (true && strC.empty s) = true then s = strC.zero else Back strC s s :=
  mayOmit (by simp [strC]) (back_str s).back

theorem omit_int {n : Int} (h : IsI64 n) : if (true && intC.empty n) = true then n = intC.zero else Back intC n n :=
  mayOmit (by simp [intC]) (back_int h).back

theorem omit_time {t : Time} (h : t.Valid) : if (true && timeC.empty t) = true then t = timeC.zero else Back timeC t t :=
  mayOmit (by simp [timeC]) (back_time h).back

theorem back_coords {short : ℚ → Str} (hs : Shortest short) {n : Nat} {l : List ℚ}
    (h : l.length = n ∧ ∀ q ∈ l, Float64 q) : Back (arrayC n (floatC short)) l l :=
  (back_array h.1 fun q hq => (back_float (hs q (h.2 q hq))).back).back

theorem back_texts (o : Option (List Str)) : Back (sliceC strC) o o :=
  back_slice_id fun _ _ s _ => (back_str s).back

theorem back_text (o : Option Str) : Back (ptrC strC) o o := by
  have := back_ptr (c := strC) (f := id) (o := o) fun s _ => back_str s
  simpa using this

theorem back_u64 {n : Nat} (h : U64 n) : Back (uintC 64) n n := (back_uint le_rfl h).back

theorem nilIfEmpty_of_empty {α : Type} {c : Codec α} {o : Option (List α)} (h : (sliceC c).empty o = true) :
    nilIfEmpty o = none := by
  cases o with
  | none => rfl
  | some l => cases l with
    | nil => rfl
    | cons a l => simp [sliceC] at h

theorem nilIfEmpty_of_not {α : Type} {c : Codec α} {o : Option (List α)} (h : (sliceC c).empty o = false) :
    nilIfEmpty o = o := by
  cases o with
  | none => simp [sliceC] at h
  | some l => cases l with
    | nil => simp [sliceC] at h
    | cons a l => rfl

theorem omit_slice {α : Type} {c : Codec α} {f : α → α} {o : Option (List α)}
    (h : ∀ l, o = some l → ∀ a ∈ l, Back c a (f a)) :
    if (true && (sliceC c).empty o) = true then nilIfEmpty (o.map (·.map f)) = (sliceC c).zero
      else Back (sliceC c) o (nilIfEmpty (o.map (·.map f))) := by
  cases o with
  | none => simp [sliceC, nilIfEmpty]
  | some l =>
    cases l with
    | nil => simp [sliceC, nilIfEmpty]
    | cons a l =>
      have := back_slice (c := c) (f := f) (o := some (a :: l)) h
      rw [if_neg (by simp [sliceC])]
      simpa [nilIfEmpty] using this

theorem omit_slice_id {α : Type} {c : Codec α} {o : Option (List α)} (h : ∀ l, o = some l → ∀ a ∈ l, Back c a a) :
    if (true && (sliceC c).empty o) = true then nilIfEmpty o = (sliceC c).zero
      else Back (sliceC c) o (nilIfEmpty o) := by
  have := omit_slice (f := id) h
  simpa using this

/-! ### No two fields of a type share a name, even up to case -/

theorem vectorLayer_distinct : vectorLayerR.Distinct := by unfold Rec.Distinct; decide +kernel
theorem tileJSON_keys (short : ℚ → Str) : (tileJSONR short).keys = tileJSONNames.map String.toList := rfl
theorem tileJSON_distinct (short : ℚ → Str) : (tileJSONR short).Distinct := by
  unfold Rec.Distinct; rw [tileJSON_keys]; decide +kernel
def tilesetNames : List String :=
  ["type", "center", "created", "description", "filesize", "id", "modified", "name", "visibility", "status"]
theorem tileset_keys (short : ℚ → Str) : (tilesetR short).keys = tilesetNames.map String.toList := rfl
theorem tileset_distinct (short : ℚ → Str) : (tilesetR short).Distinct := by
  unfold Rec.Distinct; rw [tileset_keys]; decide +kernel
theorem listStyle_distinct : listStyleR.Distinct := by unfold Rec.Distinct; decide +kernel
theorem recipeLayer_distinct : recipeLayerR.Distinct := by unfold Rec.Distinct; decide +kernel
theorem recipe_distinct : recipeR.Distinct := by unfold Rec.Distinct; decide +kernel
theorem codePoints_distinct : codePointsR.Distinct := by unfold Rec.Distinct; decide +kernel
theorem language_distinct : languageR.Distinct := by unfold Rec.Distinct; decide +kernel
theorem coverage_distinct : coverageR.Distinct := by unfold Rec.Distinct; decide +kernel
def mbLayerNames : List String := ["id", "fields", "description", "minzoom", "maxzoom"]
theorem mbLayer_keys (short : ℚ → Str) : (mbLayerR short).keys = mbLayerNames.map String.toList := rfl
theorem mbLayer_distinct (short : ℚ → Str) : (mbLayerR short).Distinct := by
  unfold Rec.Distinct; rw [mbLayer_keys]; decide +kernel
def attributeNames : List String := ["attribute", "count", "type", "values"]
theorem attribute_keys (short : ℚ → Str) : (attributeR short).keys = attributeNames.map String.toList := rfl
theorem attribute_distinct (short : ℚ → Str) : (attributeR short).Distinct := by
  unfold Rec.Distinct; rw [attribute_keys]; decide +kernel
def statLayerNames : List String := ["layer", "count", "geometry", "attributeCount", "attributes"]
theorem statLayer_keys (short : ℚ → Str) : (statLayerR short).keys = statLayerNames.map String.toList := rfl
theorem statLayer_distinct (short : ℚ → Str) : (statLayerR short).Distinct := by
  unfold Rec.Distinct; rw [statLayer_keys]; decide +kernel
def tileStatsNames : List String := ["layerCount", "layers"]
theorem tileStats_keys (short : ℚ → Str) : (tileStatsR short).keys = tileStatsNames.map String.toList := rfl
theorem tileStats_distinct (short : ℚ → Str) : (tileStatsR short).Distinct := by
  unfold Rec.Distinct; rw [tileStats_keys]; decide +kernel
def layerDataNames : List String := ["vector_layers", "tilestats"]
theorem layerData_keys (short : ℚ → Str) : (layerDataR short).keys = layerDataNames.map String.toList := rfl
theorem layerData_distinct (short : ℚ → Str) : (layerDataR short).Distinct := by
  unfold Rec.Distinct; rw [layerData_keys]; decide +kernel
def metadataNames : List String := ["name", "format", "bounds", "center", "minzoom", "maxzoom", "description", "version",
  "type", "attribution", "json", "directory_layout", "origin", "srs", "bounds_srs", "res_factor", "tile_size"]
theorem metadata_keys (short : ℚ → Str) (addr : Bool) :
    (metadataR short addr).keys = metadataNames.map String.toList := rfl
theorem metadata_distinct (short : ℚ → Str) (addr : Bool) : (metadataR short addr).Distinct := by
  unfold Rec.Distinct; rw [metadata_keys]; decide +kernel

/-! ### Round trips -/

theorem back_vectorLayer {v : VectorLayer} (h : v.Valid) : BackV vectorLayerC v v.back := by
  refine back_iso rfl (back_struct vectorLayer_distinct ?_) rfl
  refine ⟨always (back_int h.version).back, always (back_int h.extent).back, always (back_str _).back,
    always (back_str _).back, always (back_str _).back,
    always (back_map_id fun m hm => ⟨h.fields m hm, fun e _ => (back_str _).back⟩),
    omit_slice_id (fun _ _ s _ => (back_str s).back), omit_str _, always (back_u64 h.minZoom), always (back_u64 h.maxZoom),
    always (back_texts _), trivial⟩

theorem back_tileJSON {short : ℚ → Str} (hs : Shortest short) {t : TileJSON} (h : t.Valid) :
    BackV (tileJSONC short) t t.back := by
  refine back_iso rfl (back_struct (tileJSON_distinct short) ?_) rfl
  unfold tileJSONR
  refine andAll (always (back_str _).back) <| andAll (always (back_text _)) <| andAll (always (back_coords hs h.bounds)) <|
    andAll (always (back_coords hs h.center)) <| andAll (always (back_str _).back) <| andAll (always (back_u64 h.minZoom)) <|
    andAll (always (back_u64 h.maxZoom)) <| andAll (always (back_text _)) <| andAll (always (back_text _)) <|
    andAll (always (back_str _).back) <| andAll (always (back_str _).back) <| andAll (always (back_texts _)) <|
    andAll (always (back_texts _)) <| andAll (always (back_texts _)) <| andAll (always (back_str _).back) <|
    andAll (always (back_text _)) <| andAll (always (back_text _)) <|
    andAll (omit_slice (fun l hl v hv => (back_vectorLayer (h.layers l hl v hv)).back)) <|
    andAll (always (back_str _).back) <| andAll (always (back_uint (by norm_num) h.tileSize).back) trivial

/-- **C94.** A TileJSON document written from a `TileJSON` and read (as `GetTileJSON` does) gives the same `TileJSON`: every
text, missing text, coordinate, number and list, and every layer; only an empty list of layers or of feature tags comes back
as nil. -/
theorem C94_tilejson {short : ℚ → Str} (hs : Shortest short) (t : TileJSON) (h : t.Valid) :
    ∃ doc, (tileJSONC short).write t = some doc ∧ getTileJSON short doc = (t.back, true) := by
  obtain ⟨doc, h1, h2⟩ := (back_tileJSON hs h).back.read
  exact ⟨doc, h1, by unfold getTileJSON; rw [h2]⟩

theorem back_tileset {short : ℚ → Str} (hs : Shortest short) {t : Tileset} (h : t.Valid) :
    BackV (tilesetC short) t t := by
  refine back_iso rfl (back_struct (tileset_distinct short) ?_) rfl
  exact ⟨omit_str _, mayOmit (by simp [arrayC]) (back_coords hs h.center), omit_time h.created, omit_str _,
    omit_int h.filesize, omit_str _, omit_time h.modified, omit_str _, omit_str _, omit_str _, trivial⟩

/-- **C94.** A page of tilesets (`ListTilesets`) is read back as it was written, dates with their nanoseconds and time zone
included. -/
theorem C94_tilesets {short : ℚ → Str} (hs : Shortest short) (o : Option (List Tileset))
    (h : ∀ l, o = some l → ∀ t ∈ l, t.Valid) :
    ∃ doc, (sliceC (tilesetC short)).write o = some doc ∧ tilesetPage short doc = some o :=
  (back_slice_id fun l hl t ht => (back_tileset hs (h l hl t ht)).back).read

theorem back_listStyle {t : ListStyle} (h : t.Valid) : BackV listStyleC t t := by
  refine back_iso rfl (back_struct listStyle_distinct ?_) rfl
  exact ⟨omit_int h.version, omit_str _, omit_time h.created, omit_str _, omit_time h.modified, omit_str _, trivial⟩

/-- **C94.** A page of styles (`ListStyles`) is read back as it was written. -/
theorem C94_styles (o : Option (List ListStyle)) (h : ∀ l, o = some l → ∀ t ∈ l, t.Valid) :
    ∃ doc, (sliceC listStyleC).write o = some doc ∧ stylePage doc = some o :=
  (back_slice_id fun l hl t ht => (back_listStyle (h l hl t ht)).back).read

theorem back_recipeLayer {l : RecipeLayer} (h : U64 l.minZoom ∧ U64 l.maxZoom) : BackV recipeLayerC l l := by
  refine back_iso rfl (back_struct recipeLayer_distinct ?_) rfl
  exact ⟨always (back_str _).back, always (back_u64 h.1), always (back_u64 h.2), trivial⟩

theorem back_recipe {r : Recipe} (h : r.Valid) : BackV recipeC r r := by
  refine back_iso rfl (back_struct recipe_distinct ?_) rfl
  exact ⟨always (back_int h.version).back,
    always (back_map_id fun m hm => ⟨(h.layers m hm).1, fun e he => (back_recipeLayer ((h.layers m hm).2 e he)).back⟩),
    trivial⟩

/-- **C94.** A recipe is read back as it was written. -/
theorem C94_recipe (r : Recipe) (h : r.Valid) : ∃ doc, recipeC.write r = some doc ∧ recipeC.read doc = some r :=
  (back_recipe h).back.read

theorem back_codes {o : Option (List Nat)} (h : Codes o) : Back (sliceC (uintC 32)) o o :=
  back_slice_id fun l hl n hn => (back_uint (by norm_num) (h l hl n hn)).back

theorem back_language {l : Language} (h : l.codepoints.Valid) : BackV languageC l l := by
  refine back_iso rfl (back_struct language_distinct ?_) rfl
  refine ⟨always (back_str _).back, always (back_str _).back, always ?_, trivial⟩
  refine (back_iso rfl (back_struct codePoints_distinct ?_) rfl).back
  exact ⟨always (back_codes h.exemplar), always (back_codes h.auxiliary), always (back_codes h.index),
    always (back_codes h.punctuation), trivial⟩

/-- **C94.** `NewFontCoverage` reads the languages it is given: written as JSON and read, they are the same, in the same
order, nil entries included. -/
theorem C94_languages (o : Option (List (Option Language)))
    (h : ∀ l, o = some l → ∀ x, some x ∈ l → x.codepoints.Valid) :
    ∃ doc, (sliceC (ptrC languageC)).write o = some doc ∧ newFontCoverage doc = some o := by
  refine (back_slice_id (c := ptrC languageC) ?_).read
  intro l hl a ha
  cases a with
  | none => exact back_ptr_none _
  | some x => exact (back_ptr_some (back_language (h l hl x ha))).back

/-- **C94.** Language coverage reports can be read back. -/
theorem C94_coverage (v : LanguageCoverage) (h1 : IsI64 v.total) (h2 : IsI64 v.count)
    (h3 : ∀ l, v.coverages = some l → ∀ n ∈ l, IsI64 n) :
    ∃ doc, coverageC.write v = some doc ∧ coverageC.read doc = some v := by
  refine (back_iso (w := v) rfl (back_struct coverage_distinct ?_) rfl).back.read
  exact ⟨always (back_str _).back, always (back_str _).back, always (back_int h1).back, always (back_int h2).back,
    always (back_slice_id fun l hl n hn => (back_int (h3 l hl n hn)).back), trivial⟩

theorem back_mbLayer {short : ℚ → Str} (hs : Shortest short) {l : MbLayer} (h : l.Valid) : BackV (mbLayerC short) l l := by
  refine back_iso rfl (back_struct (mbLayer_distinct short) ?_) rfl
  exact ⟨always (back_str _).back,
    always (back_map_id fun m hm => ⟨(h.fields m hm).1, fun e he => back_any hs ((h.fields m hm).2 e he)⟩),
    omit_str _, omit_int h.minZoom, omit_int h.maxZoom, trivial⟩

theorem back_attribute {short : ℚ → Str} (hs : Shortest short) {a : Attribute} (h : a.Valid) :
    BackV (attributeC short) a a := by
  refine back_iso rfl (back_struct (attribute_distinct short) ?_) rfl
  exact ⟨always (back_str _).back, always (back_int h.count).back, always (back_str _).back,
    always (back_slice_id fun l hl d hd => back_any hs (h.values l hl d hd)), trivial⟩

theorem back_statLayer {short : ℚ → Str} (hs : Shortest short) {l : StatLayer} (h : l.Valid) :
    BackV (statLayerC short) l l.back := by
  refine back_iso rfl (back_struct (statLayer_distinct short) ?_) rfl
  exact ⟨always (back_str _).back, always (back_int h.count).back, always (back_str _).back,
    always (back_int h.attributeCount).back,
    omit_slice_id (fun as has a ha => (back_attribute hs (h.attributes as has a ha)).back), trivial⟩

theorem back_tileStats {short : ℚ → Str} (hs : Shortest short) {t : TileStats} (h : t.Valid) :
    BackV (tileStatsC short) t t.back := by
  refine back_iso rfl (back_struct (tileStats_distinct short) ?_) rfl
  exact ⟨always (back_int h.layerCount).back,
    always (back_slice fun ls hls l hl => (back_statLayer hs (h.layers ls hls l hl)).back), trivial⟩

theorem back_layerData {short : ℚ → Str} (hs : Shortest short) {d : LayerData} (h : d.Valid) :
    BackV (layerDataC short) d d.back := by
  refine back_iso rfl (back_struct (layerData_distinct short) ?_) rfl
  refine ⟨mayOmit' ?_ ?_, mayOmit' ?_ ?_, trivial⟩
  · intro he
    simp only [LayerData.back]
    cases hv : d.vectorLayers with
    | none => rfl
    | some o => rw [hv] at he; simp [ptrC] at he
  · intro _
    simp only [LayerData.back]
    cases hv : d.vectorLayers with
    | none => exact back_ptr_none _
    | some o =>
      cases o with
      | none => exact ⟨.null, rfl, rfl⟩
      | some l =>
        have := back_slice_some (c := mbLayerC short) (f := id) (l := l) fun v hm => (back_mbLayer hs (h.vectorLayers l hv v hm)).back
        have := (back_ptr_some this).back
        simpa using this
  · intro he
    simp only [LayerData.back]
    cases hv : d.tileStats with
    | none => rfl
    | some o => rw [hv] at he; simp [ptrC] at he
  · intro _
    exact back_ptr fun t ht => back_tileStats hs (h.tileStats t ht)

/-- **C94.** The layer data of a tileset (the `json` entry of the metadata) is read back as it was written; an empty list of
attributes comes back as nil, and so does a pointer to a nil list of layers. -/
theorem C94_layer_data {short : ℚ → Str} (hs : Shortest short) (d : LayerData) (h : d.Valid) :
    ∃ doc, (layerDataC short).write d = some doc ∧ (ptrC (layerDataC short)).read doc = some (some d.back) := by
  obtain ⟨doc, h1, h2⟩ := (back_ptr_some (back_layerData hs h)).back.read
  exact ⟨doc, h1, h2⟩

theorem back_layerType (n : Int) (h : n = 0 ∨ n = 1) : BackV (layerTypeC true) n n := by
  rcases h with rfl | rfl
  · exact ⟨.str "baselayer".toList, rfl, by simp, by decide +kernel⟩
  · exact ⟨.str "overlay".toList, rfl, by simp, by decide +kernel⟩

theorem back_metadata {short : ℚ → Str} (hs : Shortest short) {m : Metadata} (h : m.Valid) (addr : Bool)
    (ht : m.type ≠ 0 → addr = true) : BackV (metadataC short addr) m m.back := by
  refine back_iso rfl (back_struct (metadata_distinct short addr) ?_) rfl
  refine ⟨always (back_str _).back, always (back_uint (by norm_num) (by simpa using h.format)).back,
    mayOmit (by simp [arrayC]) (back_coords hs h.bounds), mayOmit (by simp [arrayC]) (back_coords hs h.center),
    omit_int h.minZoom, omit_int h.maxZoom, omit_str _, omit_str _, mayOmit' (by simp [layerTypeC, Metadata.back]) ?_,
    omit_str _, mayOmit' ?_ ?_, omit_str _, omit_str _, omit_str _, omit_str _, mayOmit' ?_ ?_, mayOmit' ?_ ?_, trivial⟩
  · intro he
    have : m.type ≠ 0 := by simpa [layerTypeC] using he
    rw [ht this]
    exact (back_layerType _ h.type).back
  · intro he
    simp only [Metadata.back]
    cases hv : m.layerData with
    | none => rfl
    | some o => rw [hv] at he; simp [ptrC] at he
  · intro _
    exact back_ptr fun d hd => back_layerData hs (h.layerData d hd)
  · intro he
    simp only [Metadata.back]
    cases hv : m.resFactor <;> rw [hv] at he <;> simp [anyC] at he
    rfl
  · intro _
    exact back_any hs h.resFactor
  · intro he
    simp only [Metadata.back]
    cases hv : m.tileSize with
    | none => rfl
    | some o => rw [hv] at he; simp [ptrC] at he
  · intro _
    have := back_ptr (c := arrayC 2 intC) (f := id) (o := m.tileSize) fun l hl =>
      back_array (h.tileSize l hl).1 fun n hn => (back_int ((h.tileSize l hl).2 n hn)).back
    simp only [Option.map_id_fun, id] at this
    exact this

/-- **C94.** Metadata marshalled through a pointer is read back as it was. -/
theorem C94_metadata {short : ℚ → Str} (hs : Shortest short) (m : Metadata) (h : m.Valid) :
    ∃ doc, (metadataC short true).write m = some doc ∧ (metadataC short true).read doc = some m.back :=
  (back_metadata hs h true (fun _ => rfl)).back.read

/-- **C94.** A date that exists, with a time zone less than a day away, is written and read back exactly: date, time of day,
nanoseconds and time zone. The texts accepted are exactly those of the specification, each as the one time it says; writing
is refused exactly for years beyond 9999 and time zones of a day or more. -/
theorem C94_time : (∀ t : Time, t.Valid → ∃ s, t.text = some s ∧ parseTime s = some t) ∧
    (∀ s t, parseTime s = some t ↔ TimeText s t) ∧
    (∀ t : Time, t.text = none ↔ 9999 < t.year ∨ 24 * 60 ≤ t.off.natAbs) :=
  ⟨time_back, fun _ _ => parseTime_iff, time_text_none⟩

/-- **C94.** A time zone of 24 hours (or 23 hours and 60 minutes) is read but cannot be written again: such a tileset or style
can be listed and not marshalled. -/
theorem C94_time_day (s : Str) (t : Time) (h : TimeText s t) (ho : 24 * 60 ≤ t.off.natAbs) :
    timeC.read (.str s) = some t ∧ timeC.write t = none := by
  constructor
  · simp [Codec.read, timeC, parseTime_iff.mpr h]
  · simp [Codec.write, timeC, (time_text_none t).mpr (Or.inr ho)]

example : parseTime "2024-02-29T7:05:00,5+24:00".toList = some ⟨2024, 2, 29, 7, 5, 0, 500000000, 1440⟩ := by decide +kernel

end Verif.Doc
