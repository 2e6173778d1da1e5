import Verif.Spec.DocWrite
import Verif.Props.DocForms

/-!
# C94: the form of the other JSON documents
-/
namespace Verif.Doc

open Verif.Go

theorem enc_append_always {α β : Type} {k : String} {c : Codec α} {r : Rec β} {a : α} {b : β} {j : J} {ms : List (Str × J)}
    (h : c.enc a = some j) (hr : r.encAll b = some ms) : (Rec.cons k.toList false c r).encAll (a, b) = some ([mem k j] ++ ms) :=
  enc_cons_always h hr

/-- A member with `omitempty`: none when the value is empty. -/
theorem enc_cons_opt {α β : Type} {k : String} {c : Codec α} {r : Rec β} {a : α} {b : β} {x ms : List (Str × J)}
    (h : (c.empty a = true ∧ x = []) ∨ (c.empty a = false ∧ ∃ j, c.enc a = some j ∧ x = [mem k j])) (hr : r.encAll b = some ms) :
    (Rec.cons k.toList true c r).encAll (a, b) = some (x ++ ms) := by
  rcases h with ⟨h, rfl⟩ | ⟨h, j, e, rfl⟩
  · simp [Rec.encAll, hr, h]
  · simp [Rec.encAll, hr, h, e, mem]

theorem enc_int {β : Type} {k : String} {r : Rec β} {n : Int} {b : β} {ms : List (Str × J)} (hr : r.encAll b = some ms) :
    (Rec.cons k.toList true intC r).encAll (n, b) = some (unlessZero k n ++ ms) :=
  enc_cons_omit (c := intC) (a := n) rfl hr

theorem enc_str {β : Type} {k : String} {r : Rec β} {s : Str} {b : β} {ms : List (Str × J)} (hr : r.encAll b = some ms) :
    (Rec.cons k.toList true strC r).encAll (s, b) = some (unlessEmpty k s ++ ms) :=
  enc_cons_omit (c := strC) (a := s) rfl hr

theorem enc_time {β : Type} {k : String} {r : Rec β} {t : Time} {x : Str} (ht : t.text = some x) {b : β} {ms : List (Str × J)}
    (hr : r.encAll b = some ms) : (Rec.cons k.toList true timeC r).encAll (t, b) = some ([mem k (.str x)] ++ ms) :=
  enc_cons_opt (.inr ⟨rfl, _, by simp [timeC, ht], rfl⟩) hr

theorem enc_ptr {α β : Type} {k : String} {c : Codec α} {f : α → J} (hc : ∀ a, c.enc a = some (f a)) {r : Rec β} {o : Option α} {b : β}
    {ms : List (Str × J)} (hr : r.encAll b = some ms) :
    (Rec.cons k.toList true (ptrC c) r).encAll (o, b) = some (ifGiven k f o ++ ms) := by
  cases o with
  | none => exact enc_cons_opt (.inl ⟨rfl, rfl⟩) hr
  | some a => exact enc_cons_opt (.inr ⟨rfl, _, hc a, rfl⟩) hr

theorem encList_of {α : Type} {c : Codec α} {f : α → J} (hc : ∀ a, c.enc a = some (f a)) : ∀ l : List α, encList c l = some (l.map f) := by
  intro l
  induction l with
  | nil => rfl
  | cons a l ih => simp only [encList, ih, hc, List.map_cons]

theorem encMap_of {α : Type} {c : Codec α} {f : α → J} (hc : ∀ a, c.enc a = some (f a)) :
    ∀ l : List (Str × α), encMap c l = some (l.map fun e => (e.1, f e.2)) := by
  intro l
  induction l with
  | nil => rfl
  | cons a l ih => simp only [encMap, ih, hc, List.map_cons]

theorem enc_list {α : Type} {c : Codec α} {f : α → J} (hc : ∀ a, c.enc a = some (f a)) (o : Option (List α)) :
    (sliceC c).enc o = some (listDoc f o) := by
  cases o with
  | none => rfl
  | some l => simp [sliceC, encList_of hc, listDoc]

theorem enc_map {α : Type} {c : Codec α} {f : α → J} (hc : ∀ a, c.enc a = some (f a)) (o : Option (List (Str × α))) :
    (mapC c).enc o = some (mapDoc f o) := by
  cases o with
  | none => rfl
  | some l => simp [mapC, encMap_of hc, mapDoc]

theorem enc_codes (o : Option (List Nat)) : (sliceC (uintC 32)).enc o = some (codes o) := by
  rw [enc_list (c := uintC 32) (f := fun n => number n) (fun _ => rfl)]
  cases o with
  | none => rfl
  | some l => simp [listDoc, codes, numbers]

theorem enc_numbers (o : Option (List Int)) : (sliceC intC).enc o = some (numbers o) := by
  rw [enc_list (c := intC) (f := number) (fun _ => rfl)]
  cases o <;> rfl

theorem struct_same {β α : Type} {r : Rec β} {split : α → β} {join : β → α} {v : α} {ms ms' : List (Str × J)}
    (h : r.encAll (split v) = some ms) (e : ms = ms') : ((structC r).iso split join).enc v = some (.obj ms') := by
  rw [← e]; exact struct_doc h

/-- **C94.** The document written for a listed style, if its times can be written. -/
theorem C94_style_form (s : ListStyle) (created modified : Str) (hc : s.created.text = some created) (hm : s.modified.text = some modified) :
    listStyleC.write s = some (listStyleDoc s created modified) :=
  struct_same (r := listStyleR) (v := s) (by
    unfold listStyleR
    exact enc_int <| enc_str <| enc_time hc <| enc_str <| enc_time hm <| enc_str enc_nil) (by simp)

/-- **C94.** The document written for a listed tileset, if its times can be written. -/
theorem C94_tileset_form (short : ℚ → Str) (t : Tileset) (created modified : Str) (hc : t.created.text = some created)
    (hm : t.modified.text = some modified) : (tilesetC short).write t = some (tilesetDoc short t created modified) :=
  struct_same (r := tilesetR short) (v := t) (by
    unfold tilesetR
    exact enc_str <| enc_cons_opt (.inr ⟨rfl, _, enc_coords 3 short t.center, rfl⟩) <| enc_time hc <| enc_str <| enc_int <| enc_str <|
      enc_time hm <| enc_str <| enc_str <| enc_str enc_nil) (by simp)

/-- **C94.** The document written for a language. -/
theorem C94_language_form (l : Language) : languageC.write l = some (languageDoc l) := by
  have h : codePointsC.enc l.codepoints = some (.obj [mem "exemplarCharacters" (codes l.codepoints.exemplar),
      mem "auxiliary" (codes l.codepoints.auxiliary), mem "index" (codes l.codepoints.index),
      mem "punctuation" (codes l.codepoints.punctuation)]) :=
    struct_same (r := codePointsR) (v := l.codepoints) (by
      unfold codePointsR
      exact enc_append_always (enc_codes _) <| enc_append_always (enc_codes _) <| enc_append_always (enc_codes _) <|
        enc_append_always (enc_codes _) enc_nil) (by simp)
  exact struct_same (r := languageR) (v := l) (by
    unfold languageR
    exact enc_append_always (a := l.id) rfl <| enc_append_always (a := l.name) rfl <| enc_append_always h enc_nil) (by simp)

/-- **C94.** The document written for the coverage of a language. -/
theorem C94_coverage_form (c : LanguageCoverage) : coverageC.write c = some (coverageDoc c) :=
  struct_same (r := coverageR) (v := c) (by
    unfold coverageR
    exact enc_append_always (a := c.name) rfl <| enc_append_always (a := c.id) rfl <| enc_append_always (a := c.total) rfl <|
      enc_append_always (a := c.count) rfl <| enc_append_always (enc_numbers _) enc_nil) (by simp [number])

mutual
theorem dynDoc_eq (short : ℚ → Str) : ∀ d : Dyn, d.enc short = dynDoc short d
  | .nil => by rw [Dyn.enc, dynDoc]
  | .bool b => by rw [Dyn.enc, dynDoc]
  | .num q => by rw [Dyn.enc, dynDoc]
  | .int n => by rw [Dyn.enc, dynDoc]; rfl
  | .str s => by rw [Dyn.enc, dynDoc]
  | .list l => by rw [Dyn.enc, dynDoc, dynDocs_eq]
  | .map l => by rw [Dyn.enc, dynDoc, dynMembers_eq]
theorem dynDocs_eq (short : ℚ → Str) : ∀ l : List Dyn, Dyn.encL short l = dynDocs short l
  | [] => by rw [Dyn.encL, dynDocs]
  | d :: ds => by rw [Dyn.encL, dynDocs, dynDoc_eq, dynDocs_eq]
theorem dynMembers_eq (short : ℚ → Str) : ∀ l : List (Str × Dyn), Dyn.encM short l = dynMembers short l
  | [] => by rw [Dyn.encM, dynMembers]
  | (k, d) :: ds => by rw [Dyn.encM, dynMembers, dynDoc_eq, dynMembers_eq]
end

theorem enc_any (short : ℚ → Str) (d : Dyn) : (anyC short).enc d = some (dynDoc short d) := congrArg some (dynDoc_eq short d)

theorem doc_mbLayer (short : ℚ → Str) (l : MbLayer) : (mbLayerC short).enc l = some (mbLayerDoc short l) :=
  struct_same (r := mbLayerR short) (v := l) (by
    unfold mbLayerR
    exact enc_append_always (a := l.id) rfl <| enc_append_always (enc_map (enc_any short) _) <| enc_str <| enc_int <| enc_int enc_nil)
    (by simp)

theorem doc_attribute (short : ℚ → Str) (a : Attribute) : (attributeC short).enc a = some (attributeDoc short a) :=
  struct_same (r := attributeR short) (v := a) (by
    unfold attributeR
    exact enc_append_always (a := a.name) rfl <| enc_append_always (a := a.count) rfl <| enc_append_always (a := a.type) rfl <|
      enc_append_always (enc_list (enc_any short) _) enc_nil) (by simp [number])

theorem doc_statLayer (short : ℚ → Str) (l : StatLayer) : (statLayerC short).enc l = some (statLayerDoc short l) :=
  struct_same (r := statLayerR short) (v := l) (by
    unfold statLayerR
    exact enc_append_always (a := l.name) rfl <| enc_append_always (a := l.count) rfl <| enc_append_always (a := l.geometry) rfl <|
      enc_append_always (a := l.attributeCount) rfl <| enc_cons_omit (enc_list (doc_attribute short) _) enc_nil)
    (by cases h : l.attributes <;> simp [sliceC, isNone, number])

theorem doc_tileStats (short : ℚ → Str) (t : TileStats) : (tileStatsC short).enc t = some (tileStatsDoc short t) :=
  struct_same (r := tileStatsR short) (v := t) (by
    unfold tileStatsR
    exact enc_append_always (a := t.layerCount) rfl <| enc_append_always (enc_list (doc_statLayer short) _) enc_nil) (by simp [number])

/-- **C94.** The document written for the `json` entry of an MBTiles file. -/
theorem C94_layer_data_form (short : ℚ → Str) (d : LayerData) : (layerDataC short).write d = some (layerDataDoc short d) :=
  struct_same (r := layerDataR short) (v := d) (by
    unfold layerDataR
    exact enc_ptr (enc_list (doc_mbLayer short)) <| enc_ptr (doc_tileStats short) enc_nil)
    (by simp)

/-- **C94.** The document written for the metadata of an MBTiles file through a pointer, for the two layer types there are. -/
theorem C94_metadata_form (short : ℚ → Str) (m : Metadata) (ht : m.type = 0 ∨ m.type = 1) :
    (metadataC short true).write m = some (metadataDoc short m) :=
  struct_same (r := metadataR short true) (v := m) (by
    unfold metadataR
    refine enc_append_always (a := m.name) rfl <| enc_append_always (a := m.format) rfl <|
      enc_cons_opt (.inr ⟨rfl, _, enc_coords 4 short m.bounds, rfl⟩) <| enc_cons_opt (.inr ⟨rfl, _, enc_coords 3 short m.center, rfl⟩) <|
      enc_int <| enc_int <| enc_str <| enc_str <|
      enc_cons_opt (x := if m.type = 1 then [mem "type" (.str "overlay".toList)] else []) ?_ <| enc_str <|
      enc_ptr (C94_layer_data_form short) <| enc_str <| enc_str <| enc_str <| enc_str <|
      enc_cons_opt (x := unlessNil short "res_factor" m.resFactor) ?_ <|
      enc_ptr (f := fun l => numbers (some l)) (fun a => ?_) enc_nil
    · rcases ht with h | h
      · exact .inl ⟨by rw [h]; rfl, by rw [h]; rfl⟩
      · exact .inr ⟨by rw [h]; rfl, _, by rw [h]; rfl, by rw [h]; rfl⟩
    · cases h : m.resFactor with
      | nil => exact .inl ⟨rfl, rfl⟩
      | _ => exact .inr ⟨rfl, _, enc_any short _, rfl⟩
    · simp [arrayC, encList_of (c := intC) (f := number) (fun _ => rfl), numbers])
    (by simp [number])

theorem enc_fail_here {α β : Type} {k : Str} {om : Bool} {c : Codec α} {r : Rec β} {a : α} {b : β} (he : c.empty a = false)
    (h : c.enc a = none) : (Rec.cons k om c r).encAll (a, b) = none := by
  simp only [Rec.encAll, he, Bool.and_false, Bool.false_eq_true, if_false, h]

theorem enc_fail_later {α β : Type} {k : Str} {om : Bool} {c : Codec α} {r : Rec β} {a : α} {b : β} (h : r.encAll b = none) :
    (Rec.cons k om c r).encAll (a, b) = none := by
  simp only [Rec.encAll, h]
  cases om && c.empty a <;> cases c.enc a <;> rfl

theorem struct_fail {β α : Type} {r : Rec β} {split : α → β} {join : β → α} {v : α} (h : r.encAll (split v) = none) :
    ((structC r).iso split join).enc v = none := by
  simp [Codec.iso, structC, h]

/-- **C94.** Writing a listed style or tileset is an error when one of its times cannot be written, and only then. -/
theorem C94_times_error (short : ℚ → Str) (s : ListStyle) (t : Tileset) :
    (listStyleC.write s = none ↔ s.created.text = none ∨ s.modified.text = none) ∧
    ((tilesetC short).write t = none ↔ t.created.text = none ∨ t.modified.text = none) := by
  constructor
  · cases hc : s.created.text with
    | none =>
      simp only [true_or, iff_true]
      exact struct_fail (r := listStyleR) (v := s) (by
        unfold listStyleR
        exact enc_fail_later <| enc_fail_later <| enc_fail_here rfl (by simp [timeC, hc]))
    | some x =>
      cases hm : s.modified.text with
      | none =>
        simp only [or_true, iff_true]
        exact struct_fail (r := listStyleR) (v := s) (by
          unfold listStyleR
          exact enc_fail_later <| enc_fail_later <| enc_fail_later <| enc_fail_later <| enc_fail_here rfl (by simp [timeC, hm]))
      | some y => rw [C94_style_form s x y hc hm]; simp
  · cases hc : t.created.text with
    | none =>
      simp only [true_or, iff_true]
      exact struct_fail (r := tilesetR short) (v := t) (by
        unfold tilesetR
        exact enc_fail_later <| enc_fail_later <| enc_fail_here rfl (by simp [timeC, hc]))
    | some x =>
      cases hm : t.modified.text with
      | none =>
        simp only [or_true, iff_true]
        exact struct_fail (r := tilesetR short) (v := t) (by
          unfold tilesetR
          exact enc_fail_later <| enc_fail_later <| enc_fail_later <| enc_fail_later <| enc_fail_later <| enc_fail_later <|
            enc_fail_here rfl (by simp [timeC, hm]))
      | some y => rw [C94_tileset_form short t x y hc hm]; simp

/-- **C94.** Writing metadata with another layer type through a pointer is an error. -/
theorem C94_metadata_error (short : ℚ → Str) (m : Metadata) (ht : m.type ≠ 0 ∧ m.type ≠ 1) : (metadataC short true).write m = none := by
  have he : (layerTypeC true).enc m.type = none := by
    unfold layerTypeC
    simp only [if_true]
    by_cases h : m.type < 0
    · rw [if_pos h]
    · rw [if_neg h]
      have : 2 ≤ m.type.toNat := by omega
      have hl : layerTypeStrings[m.type.toNat]? = none := List.getElem?_eq_none (by simpa [layerTypeStrings] using this)
      rw [hl]; rfl
  exact struct_fail (r := metadataR short true) (v := m) (by
    unfold metadataR
    exact enc_fail_later <| enc_fail_later <| enc_fail_later <| enc_fail_later <| enc_fail_later <| enc_fail_later <|
      enc_fail_later <| enc_fail_later <| enc_fail_here (by simpa [layerTypeC] using ht.1) he)

/-- A style with two times that can be written. -/
example : (⟨2024, 2, 29, 23, 59, 58, 120000000, -330⟩ : Time).text = some "2024-02-29T23:59:58.12-05:30".toList ∧
    Time.zero.text = some "0001-01-01T00:00:00Z".toList := by
  constructor <;> decide +kernel

end Verif.Doc
