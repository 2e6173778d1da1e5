import Verif.Proof.FontPbf
import Verif.Props.Font

/-! # C93: glyph files -/
namespace Verif.FontPbf
open Verif.Pbf

/-- What the required fields of a file are: every stack has a name and a range, every glyph an id, a size, an offset and an advance. -/
theorem C93_required (g : PGlyphs) :
    (g.ready = true ↔ ∀ s ∈ g.stackList, s.name ≠ none ∧ s.range ≠ none ∧ ∀ x ∈ s.glyphs,
      x.id ≠ none ∧ x.width ≠ none ∧ x.height ≠ none ∧ x.left ≠ none ∧ x.top ≠ none ∧ x.advance ≠ none) ∧
    ((∃ b, marshal g = .ok b) ↔ g.ready = true) := by
  constructor
  · unfold PGlyphs.ready
    simp only [List.all_eq_true]
    refine forall_congr' fun s => imp_congr_right fun _ => ?_
    unfold PStack.ready
    simp only [Bool.and_eq_true, List.all_eq_true, Option.isSome_iff_ne_none, and_assoc]
    refine and_congr_right fun _ => and_congr_right fun _ => forall_congr' fun x => imp_congr_right fun _ => ?_
    unfold PGlyph.ready
    simp only [Bool.and_eq_true, Option.isSome_iff_ne_none, and_assoc]
  · unfold marshal
    split
    · rename_i h; simp [h]
    · rename_i h; simp [h]

/-- **C93.** Every glyph file whose required fields are set is read back exactly as it was written, unknown fields and the
difference between no bitmap and an empty one included. -/
theorem C93_roundtrip (g : PGlyphs) (hg : g.Ok) (b : Bytes) (h : marshal g = .ok b) (hl : b.length < 2 ^ 64) : unmarshal b = .ok g := by
  unfold marshal at h
  split at h
  · rename_i hr
    simp only [Except.ok.injEq] at h
    subst h
    unfold unmarshal
    rw [decGlyphs_enc g hg hl]
    simp only
    rw [if_pos hr]
  · simp at h

/-- **C93.** Any file that is read without an error, whoever wrote it, can be written again, takes no more space then, and reads the same. -/
theorem C93_rewrite (b : Bytes) (hb : b.length < 2 ^ 64) (g : PGlyphs) (h : unmarshal b = .ok g) :
    ∃ b', marshal g = .ok b' ∧ b'.length ≤ b.length ∧ unmarshal b' = .ok g := by
  unfold unmarshal at h
  cases hd : decGlyphs b with
  | none => rw [hd] at h; simp at h
  | some g' =>
    rw [hd] at h
    simp only at h
    split at h
    · rename_i hr
      simp only [Except.ok.injEq] at h
      subst h
      have hm : marshal g' = .ok (encGlyphs g') := by unfold marshal; rw [if_pos hr]
      have hs := decGlyphs_size hd
      exact ⟨_, hm, hs, C93_roundtrip g' (decGlyphs_ok hd) _ hm (by omega)⟩
    · simp at h

/-- **C93.** Two files one after the other are one file with the stacks of both. -/
theorem C93_concat (a b : Bytes) (g h : PGlyphs) (ha : unmarshal a = .ok g) (hb : unmarshal b = .ok h) :
    unmarshal (a ++ b) = .ok ⟨g.stackList ++ h.stackList, g.unknown ++ h.unknown⟩ := by
  have key : ∀ (c : Bytes) (x : PGlyphs), unmarshal c = .ok x → decGlyphs c = some x ∧ x.ready = true := by
    intro c x hc
    unfold unmarshal at hc
    cases hd : decGlyphs c with
    | none => rw [hd] at hc; simp at hc
    | some y =>
      rw [hd] at hc
      simp only at hc
      split at hc
      · rename_i hr; simp only [Except.ok.injEq] at hc; subst hc; exact ⟨rfl, hr⟩
      · simp at hc
  obtain ⟨a1, a2⟩ := key a g ha
  obtain ⟨b1, b2⟩ := key b h hb
  unfold unmarshal
  rw [decGlyphs_append a1 b1]
  simp only
  rw [if_pos]
  unfold PGlyphs.ready at *
  rw [List.all_append, a2, b2]
  rfl

/-! ### Files of other writers -/

/-- The field a glyph field is read as. -/
def GField.raw : GField → RawField
  | .id v => rawOf 1 (.varint v)
  | .bitmap s => rawOf 2 (.bytes s)
  | .width v => rawOf 3 (.varint v)
  | .height v => rawOf 4 (.varint v)
  | .left v => rawOf 5 (.varint (sint v))
  | .top v => rawOf 6 (.varint (sint v))
  | .advance v => rawOf 7 (.varint v)
  | .other num p => rawOf num p

theorem GField.raw_keep (x : GField) : x.raw.keep = x.bytes := by cases x <;> exact rawOf_keep _ _

theorem GField.raw_ok (x : GField) (h : x.Ok) : OkRaw x.raw := by
  cases x with
  | id v => exact rawOf_ok 1 (.varint v) (by omega) (by omega) (by show v < 2 ^ 64; have : v < 2 ^ 32 := h; omega)
  | bitmap s => exact rawOf_ok 2 (.bytes s) (by omega) (by omega) h
  | width v => exact rawOf_ok 3 (.varint v) (by omega) (by omega) (by show v < 2 ^ 64; have : v < 2 ^ 32 := h; omega)
  | height v => exact rawOf_ok 4 (.varint v) (by omega) (by omega) (by show v < 2 ^ 64; have : v < 2 ^ 32 := h; omega)
  | left v => exact rawOf_ok 5 (.varint (sint v)) (by omega) (by omega) (by show sint v < 2 ^ 64; rw [sint_eq]; have := zig_lt v h; omega)
  | top v => exact rawOf_ok 6 (.varint (sint v)) (by omega) (by omega) (by show sint v < 2 ^ 64; rw [sint_eq]; have := zig_lt v h; omega)
  | advance v => exact rawOf_ok 7 (.varint v) (by omega) (by omega) (by show v < 2 ^ 64; have : v < 2 ^ 32 := h; omega)
  | other num p => obtain ⟨h1, h2, h3⟩ := h; exact rawOf_ok _ _ (by omega) h2 h3

theorem fields_flatMap {α : Type} (bytes : α → Bytes) (raw : α → RawField) (l : List α) (hk : ∀ x ∈ l, (raw x).keep = bytes x)
    (ho : ∀ x ∈ l, OkRaw (raw x)) : fields (l.flatMap bytes) = some (l.map raw) := by
  have := fields_keeps (l.map raw) (fun f hf => by obtain ⟨x, hx, rfl⟩ := List.mem_map.1 hf; exact ho x hx) []
  rw [List.append_nil, fields_nil, List.flatMap_map] at this
  simp only [Option.map_some, List.append_nil] at this
  rw [← this]
  congr 1
  clear this
  induction l with
  | nil => rfl
  | cons x l ih =>
    rw [List.flatMap_cons, List.flatMap_cons, hk x (by simp), ih (fun y hy => hk y (by simp [hy])) fun y hy => ho y (by simp [hy])]

theorem glyphField_raw (pre : List GField) (x : GField) (hx : x.Ok) : glyphField (glyphOf pre) x.raw = glyphOf (pre ++ [x]) := by
  have hmod : ∀ v : Nat, v < 2 ^ 32 → v % 4294967296 = v := fun v hv => Nat.mod_eq_of_lt (by omega)
  cases x with
  | other num p =>
    obtain ⟨h1, h2, h3⟩ := hx
    have hk : ¬ glyphKnown (rawOf num p).num (rawOf num p).val := by
      rw [rawOf_num, rawOf_val]
      unfold glyphKnown
      simp only [List.mem_cons, List.not_mem_nil, or_false]
      omega
    simp only [GField.raw]
    rw [glyphField_unknown _ _ hk, rawOf_keep]
    simp only [glyphOf, List.getLast?_concat, GField.id?, GField.bitmap?, GField.width?, GField.height?, GField.left?, GField.top?, GField.advance?,
      GField.other?, List.filterMap_append, List.flatten_append, List.filterMap_cons, List.filterMap_nil, List.flatten_cons,
      List.flatten_nil, List.append_nil]
  | bitmap s =>
    simp only [GField.raw, rawOf, glyphField, glyphOf, List.getLast?_concat, GField.id?, GField.bitmap?, GField.width?, GField.height?, GField.left?,
      GField.top?, GField.advance?, GField.other?, List.filterMap_append, List.flatten_append,
      List.filterMap_cons, List.filterMap_nil, List.flatten_nil, List.append_nil]
  | left v =>
    have e : unzig (sint v) = v := by rw [sint_eq]; exact unzig_zig v hx
    simp only [GField.raw, rawOf, glyphField, glyphOf, List.getLast?_concat, GField.id?, GField.bitmap?, GField.width?, GField.height?, GField.left?,
      GField.top?, GField.advance?, GField.other?, List.filterMap_append, List.flatten_append,
      List.filterMap_cons, List.filterMap_nil, List.flatten_nil, List.append_nil, e]
  | top v =>
    have e : unzig (sint v) = v := by rw [sint_eq]; exact unzig_zig v hx
    simp only [GField.raw, rawOf, glyphField, glyphOf, List.getLast?_concat, GField.id?, GField.bitmap?, GField.width?, GField.height?, GField.left?,
      GField.top?, GField.advance?, GField.other?, List.filterMap_append, List.flatten_append,
      List.filterMap_cons, List.filterMap_nil, List.flatten_nil, List.append_nil, e]
  | _ v =>
    have e := hmod v hx
    simp only [GField.raw, rawOf, glyphField, glyphOf, List.getLast?_concat, GField.id?, GField.bitmap?, GField.width?, GField.height?, GField.left?,
      GField.top?, GField.advance?, GField.other?, List.filterMap_append, List.flatten_append,
      List.filterMap_cons, List.filterMap_nil, List.flatten_nil, List.append_nil, e]

theorem decGlyph_fields (fs : List GField) (h : ∀ x ∈ fs, x.Ok) : decGlyph (fs.flatMap GField.bytes) = some (glyphOf fs) := by
  unfold decGlyph
  rw [fields_flatMap GField.bytes GField.raw fs (fun x _ => x.raw_keep) fun x hx => x.raw_ok (h x hx)]
  simp only [Option.map_some, Option.some.injEq]
  have : ∀ (l pre : List GField), (∀ x ∈ l, x.Ok) → (l.map GField.raw).foldl glyphField (glyphOf pre) = glyphOf (pre ++ l) := by
    intro l
    induction l with
    | nil => intro pre _; simp
    | cons x l ih =>
      intro pre hl
      rw [List.map_cons, List.foldl_cons, glyphField_raw pre x (hl x (by simp)), ih _ fun y hy => hl y (by simp [hy])]
      simp
  exact this fs [] h

/-- The field a stack field is read as. -/
def SField.raw : SField → RawField
  | .name s => rawOf 1 (.bytes s)
  | .range s => rawOf 2 (.bytes s)
  | .glyph g => rawOf 3 (.bytes (g.flatMap GField.bytes))
  | .other num p => rawOf num p

theorem SField.raw_keep (x : SField) : x.raw.keep = x.bytes := by cases x <;> exact rawOf_keep _ _

theorem SField.raw_ok (x : SField) (h : x.Ok) : OkRaw x.raw := by
  cases x with
  | name s => exact rawOf_ok 1 (.bytes s) (by omega) (by omega) h
  | range s => exact rawOf_ok 2 (.bytes s) (by omega) (by omega) h
  | glyph g => exact rawOf_ok 3 (.bytes _) (by omega) (by omega) h.2
  | other num p => obtain ⟨h1, h2, h3⟩ := h; exact rawOf_ok _ _ (by omega) h2 h3

theorem stackField_raw (pre : List SField) (x : SField) (hx : x.Ok) : stackField (stackOf pre) x.raw = some (stackOf (pre ++ [x])) := by
  cases x with
  | other num p =>
    obtain ⟨h1, h2, h3⟩ := hx
    have hk : ¬ stackKnown (rawOf num p).num (rawOf num p).val := by
      rw [rawOf_num, rawOf_val]
      unfold stackKnown
      simp only [List.mem_cons, List.not_mem_nil, or_false]
      omega
    simp only [SField.raw]
    rw [stackField_unknown _ _ hk, rawOf_keep]
    simp only [stackOf, List.getLast?_concat, SField.name?, SField.range?, SField.glyph?, SField.other?, List.filterMap_append,
      List.flatten_append, List.filterMap_cons, List.filterMap_nil, List.flatten_cons, List.flatten_nil, List.append_nil]
  | glyph g =>
    simp only [SField.raw, rawOf, stackField]
    rw [decGlyph_fields g hx.1]
    simp only [stackOf, List.getLast?_concat, SField.name?, SField.range?, SField.glyph?, SField.other?, List.filterMap_append,
      List.flatten_append, List.filterMap_cons, List.filterMap_nil, List.flatten_nil, List.append_nil, Option.map_some]
  | _ v =>
    simp only [SField.raw, rawOf, stackField]
    simp only [stackOf, List.getLast?_concat, SField.name?, SField.range?, SField.glyph?, SField.other?, 
      List.filterMap_append, List.flatten_append, List.filterMap_cons, List.filterMap_nil, List.flatten_nil, List.append_nil]

theorem decStack_fields (fs : List SField) (h : ∀ x ∈ fs, x.Ok) : decStack (fs.flatMap SField.bytes) = some (stackOf fs) := by
  unfold decStack
  rw [fields_flatMap SField.bytes SField.raw fs (fun x _ => x.raw_keep) fun x hx => x.raw_ok (h x hx)]
  simp only [Option.bind_some]
  have : ∀ (l pre : List SField), (∀ x ∈ l, x.Ok) → (l.map SField.raw).foldlM stackField (stackOf pre) = some (stackOf (pre ++ l)) := by
    intro l
    induction l with
    | nil => intro pre _; simp
    | cons x l ih =>
      intro pre hl
      rw [List.map_cons, List.foldlM_cons, stackField_raw pre x (hl x (by simp))]
      simp only [Option.bind_eq_bind, Option.bind_some]
      rw [ih _ fun y hy => hl y (by simp [hy])]
      simp
  exact this fs [] h

/-- The field a file's field is read as. -/
def TField.raw : TField → RawField
  | .stack s => rawOf 1 (.bytes (s.flatMap SField.bytes))
  | .other num p => rawOf num p

theorem TField.raw_keep (x : TField) : x.raw.keep = x.bytes := by cases x <;> exact rawOf_keep _ _

theorem TField.raw_ok (x : TField) (h : x.Ok) : OkRaw x.raw := by
  cases x with
  | stack g => exact rawOf_ok 1 (.bytes _) (by omega) (by omega) h.2
  | other num p => obtain ⟨h1, h2, h3⟩ := h; exact rawOf_ok _ _ (by omega) h2 h3

theorem glyphsField_raw (pre : List TField) (x : TField) (hx : x.Ok) : glyphsField (fileOf pre) x.raw = some (fileOf (pre ++ [x])) := by
  cases x with
  | other num p =>
    obtain ⟨h1, h2, h3⟩ := hx
    have hk : ¬ fileKnown (rawOf num p).num (rawOf num p).val := by
      rw [rawOf_num, rawOf_val]
      unfold fileKnown
      omega
    simp only [TField.raw]
    rw [glyphsField_unknown _ _ hk, rawOf_keep]
    simp only [fileOf, TField.stack?, TField.other?, List.filterMap_append,
      List.flatten_append, List.filterMap_cons, List.filterMap_nil, List.flatten_cons, List.flatten_nil, List.append_nil]
  | stack g =>
    simp only [TField.raw, rawOf, glyphsField]
    rw [decStack_fields g hx.1]
    simp only [fileOf, TField.stack?, TField.other?, List.filterMap_append,
      List.flatten_append, List.filterMap_cons, List.filterMap_nil, List.flatten_nil, List.append_nil, Option.map_some]

/-- **C93.** Files of any protobuf writer, with the fields in any order, any of them repeated, and fields of other numbers between them: a
file, a stack or a glyph is read as the last value of each of its fields, stacks and glyphs in the order written, other fields kept; it is an
error exactly if a required field is missing, and then the rest is still returned. -/
theorem C93_any_writer (fs : List TField) (h : ∀ x ∈ fs, x.Ok) :
    unmarshal (fs.flatMap TField.bytes) = if (fileOf fs).ready then .ok (fileOf fs) else .error (.required (fileOf fs)) := by
  have key : decGlyphs (fs.flatMap TField.bytes) = some (fileOf fs) := by
    unfold decGlyphs
    rw [fields_flatMap TField.bytes TField.raw fs (fun x _ => x.raw_keep) fun x hx => x.raw_ok (h x hx)]
    simp only [Option.bind_some]
    have : ∀ (l pre : List TField), (∀ x ∈ l, x.Ok) → (l.map TField.raw).foldlM glyphsField (fileOf pre) = some (fileOf (pre ++ l)) := by
      intro l
      induction l with
      | nil => intro pre _; simp
      | cons x l ih =>
        intro pre hl
        rw [List.map_cons, List.foldlM_cons, glyphsField_raw pre x (hl x (by simp))]
        simp only [Option.bind_eq_bind, Option.bind_some]
        rw [ih _ fun y hy => hl y (by simp [hy])]
        simp
    exact this fs [] h
  unfold unmarshal
  rw [key]

/-- The fields of a written glyph, in the writer's order. -/
def glyphFields (g : PGlyph) : List GField :=
  (g.id.map GField.id).toList ++ (g.bitmap.map GField.bitmap).toList ++ (g.width.map GField.width).toList ++
    (g.height.map GField.height).toList ++ (g.left.map GField.left).toList ++ (g.top.map GField.top).toList ++ (g.advance.map GField.advance).toList

/-- **C93, the format.** What is written for a glyph are the fields of the message in the order of their numbers, integers as varints, offsets
zig-zag encoded; for a stack its name, range and glyphs; for a file its stacks. -/
theorem C93_format (g : PGlyphs) (hu : g.unknown = [] ∧ ∀ s ∈ g.stackList, s.unknown = [] ∧ ∀ x ∈ s.glyphs, x.unknown = []) :
    encGlyphs g = (g.stackList.map fun s => TField.stack ((s.name.map SField.name).toList ++ (s.range.map SField.range).toList ++
      s.glyphs.map fun x => SField.glyph (glyphFields x))).flatMap TField.bytes := by
  obtain ⟨h0, hs⟩ := hu
  have hg : ∀ x : PGlyph, x.unknown = [] → encGlyph x = (glyphFields x).flatMap GField.bytes := by
    intro x hx
    obtain ⟨i, b, w, h, l, t, a, u⟩ := x
    simp only at hx
    subst hx
    unfold encGlyph glyphFields
    cases i <;> cases b <;> cases w <;> cases h <;> cases l <;> cases t <;> cases a <;>
      simp [putNat, putBytes?, putBytes, GField.bytes, wireBytes, tagOf, sint_eq]
  unfold encGlyphs
  rw [h0, List.append_nil, List.flatMap_map]
  generalize hL : g.stackList = L at *
  clear hL h0
  induction L with
  | nil => rfl
  | cons s L ih =>
    rw [List.flatMap_cons, List.flatMap_cons, ih fun x hx => hs x (by simp [hx])]
    congr 1
    obtain ⟨hsu, hgu⟩ := hs s (by simp)
    have e : encStack s = ((s.name.map SField.name).toList ++ (s.range.map SField.range).toList ++
        s.glyphs.map fun x => SField.glyph (glyphFields x)).flatMap SField.bytes := by
      unfold encStack
      rw [hsu, List.append_nil, List.flatMap_append, List.flatMap_append, List.flatMap_map]
      have e1 : putBytes? 1 s.name = (s.name.map SField.name).toList.flatMap SField.bytes := by
        cases s.name <;> simp [putBytes?, putBytes, SField.bytes, wireBytes, tagOf]
      have e2 : putBytes? 2 s.range = (s.range.map SField.range).toList.flatMap SField.bytes := by
        cases s.range <;> simp [putBytes?, putBytes, SField.bytes, wireBytes, tagOf]
      rw [e1, e2]
      congr 1
      generalize s.glyphs = G at *
      clear e1 e2 hsu hs ih
      induction G with
      | nil => rfl
      | cons x G ih =>
        rw [List.flatMap_cons, List.flatMap_cons, ih fun y hy => hgu y (by simp [hy])]
        congr 1
        rw [hg x (hgu x (by simp))]
        simp [putBytes, SField.bytes, wireBytes, tagOf]
    rw [e]
    simp [putBytes, TField.bytes, wireBytes, tagOf]

/-! ### Files of the builder -/

/-- The message says what the glyph is, and nothing else. -/
def MessageFor (g : Font.Glyph) (p : PGlyph) : Prop :=
  p.id = some g.id ∧ p.width = some g.width ∧ p.height = some g.height ∧ p.left = some g.left ∧ p.top = some g.top ∧
    p.advance = some g.advance ∧ p.bitmap = some g.bitmap ∧ p.unknown = []

/-- **C93.** The getters give the value of a field, and 0 if there is none. -/
theorem C93_getters (v : Nat) (w : Int) : getNat (some v) = v ∧ getNat none = 0 ∧ getInt (some w) = w ∧ getInt none = 0 := ⟨rfl, rfl, rfl, rfl⟩

/-- **C93.** The file made from what `SDFBuilder.Glyphs` returns is written without an error and read back as one stack with the font's name,
the range label and exactly the glyphs. -/
theorem C93_builder (name : Bytes) (min max : Int) (gs : List Font.Glyph)
    (hg : ∀ g ∈ gs, g.id < 2 ^ 32 ∧ g.width < 2 ^ 32 ∧ g.height < 2 ^ 32 ∧ g.advance < 2 ^ 32 ∧
      (-(2 ^ 31) ≤ g.left ∧ g.left < 2 ^ 31) ∧ (-(2 ^ 31) ≤ g.top ∧ g.top < 2 ^ 31))
    (hl : (encGlyphs (ofGlyphs name min max gs)).length < 2 ^ 64) :
    ∃ b s, marshal (ofGlyphs name min max gs) = .ok b ∧ unmarshal b = .ok ⟨[s], []⟩ ∧ s.name = some name ∧
      s.range = some ((Go.itoa min ++ ['-'] ++ Go.itoa max).map Char.toNat) ∧ s.unknown = [] ∧ List.Forall₂ MessageFor gs s.glyphs := by
  have hr : (ofGlyphs name min max gs).ready = true := by
    rw [(C93_required _).1]
    intro s hs
    simp only [ofGlyphs, List.mem_singleton] at hs
    subst hs
    refine ⟨by simp, by simp, fun x hx => ?_⟩
    obtain ⟨g, -, rfl⟩ := List.mem_map.1 hx
    simp [ofGlyph]
  have hok : (ofGlyphs name min max gs).Ok := by
    refine ⟨fun s hs => ?_, Unknown.nil _⟩
    simp only [ofGlyphs, List.mem_singleton] at hs
    subst hs
    refine ⟨fun x hx => ?_, Unknown.nil _⟩
    obtain ⟨g, hgm, rfl⟩ := List.mem_map.1 hx
    obtain ⟨h1, h2, h3, h4, h5, h6⟩ := hg g hgm
    refine ⟨?_, ?_, Unknown.nil _⟩ <;>
      simp only [ofGlyph, List.mem_cons, List.not_mem_nil, or_false, forall_eq_or_imp, forall_eq, Option.mem_def, Option.some.injEq,
        forall_eq'] <;> tauto
  have hm : marshal (ofGlyphs name min max gs) = .ok (encGlyphs (ofGlyphs name min max gs)) := by unfold marshal; rw [if_pos hr]
  refine ⟨_, _, hm, C93_roundtrip _ hok _ hm hl, rfl, by simp [rangeLabel], rfl, ?_⟩
  rw [List.forall₂_map_right_iff]
  exact List.forall₂_same.2 fun g _ => ⟨rfl, rfl, rfl, rfl, rfl, rfl, rfl, rfl⟩

/-- **C93.** From the font to the reader: the glyphs `SDFBuilder.Glyphs` makes for a range of characters, for a font whose metrics are int32s, come
back from the written file in order, one for each drawable character (`C19_glyphs`), with id, size, offsets, advance and bitmap. -/
theorem C93_font_file (F : Font.FontFace) (hF : Font.FaceOk F)
    (hm : ∀ x d, F.draw x = some d → (-(2 ^ 31) ≤ d.minX ∧ d.minX < 2 ^ 31) ∧ (-(2 ^ 31) < d.minY ∧ d.minY ≤ 2 ^ 31) ∧ d.advance < 2 ^ 32)
    (buffer : Nat) (hb : 1 ≤ buffer) (hb' : buffer ≤ 100000000) (min max : Int) (h0 : 0 ≤ min) (h1 : max ≤ 2147483648) (name : Bytes) :
    ∃ gs, Font.glyphs Real.sqrt buffer F min max = some gs ∧
      List.Forall₂ (Font.GlyphFor F buffer)
        (((List.range (max - min).toNat).map fun k : Nat => min + (k : Int)).filter fun x =>
          @decide (Font.Drawable F x) (Classical.propDecidable _)) gs ∧
      ((encGlyphs (ofGlyphs name min max gs)).length < 2 ^ 64 →
        ∃ b s, marshal (ofGlyphs name min max gs) = .ok b ∧ unmarshal b = .ok ⟨[s], []⟩ ∧ s.name = some name ∧
          s.range = some ((Go.itoa min ++ ['-'] ++ Go.itoa max).map Char.toNat) ∧ s.unknown = [] ∧ List.Forall₂ MessageFor gs s.glyphs) := by
  obtain ⟨gs, e, hg⟩ := Font.C19_glyphs F hF buffer hb hb' min max h0 h1
  refine ⟨gs, e, hg, fun hl => C93_builder name min max gs (fun g hgm => ?_) hl⟩
  obtain ⟨i, hi, rfl⟩ := List.mem_iff_getElem.1 hgm
  have hlen := hg.length_eq
  have hx := List.forall₂_iff_get.1 hg |>.2 i (by omega) hi
  obtain ⟨hid, dr, hd, hw, hh, hle, ht, ha, -⟩ := hx
  have hmem := List.getElem_mem (l := (((List.range (max - min).toNat).map fun k : Nat => min + (k : Int)).filter fun x =>
    @decide (Font.Drawable F x) (Classical.propDecidable _))) (n := i) (by omega)
  obtain ⟨k, hk, hkx⟩ := List.mem_map.1 (List.mem_filter.1 hmem).1
  rw [List.mem_range] at hk
  simp only [List.get_eq_getElem] at hid hd hw hh hle ht ha
  obtain ⟨s1, s2⟩ := hF.size _ _ hd
  obtain ⟨m1, m2, m3⟩ := hm _ _ hd
  norm_num at m1 m2 m3 ⊢
  rw [← hkx] at hid
  refine ⟨?_, ?_, ?_, ?_, ⟨?_, ?_⟩, ?_, ?_⟩ <;> omega

/-- **C93.** A file with one stack (as the builder makes them) that was cut short anywhere is refused, except that nothing at all is an empty
file. -/
theorem C93_truncated (s : PStack) (k : Nat) (hl : (encStack s).length < 2 ^ 64) (h0 : 0 < k) (h1 : k < (encGlyphs ⟨[s], []⟩).length) :
    unmarshal ((encGlyphs ⟨[s], []⟩).take k) = .error .malformed := by
  have e : encGlyphs ⟨[s], []⟩ = 10 :: (encVarint (encStack s).length ++ encStack s) := by
    have ht : tagOf 1 2 = [10] := by decide +kernel
    simp [encGlyphs, putBytes, ht]
  obtain ⟨j, rfl⟩ : ∃ j, k = j + 1 := ⟨k - 1, by omega⟩
  rw [e] at h1 ⊢
  rw [List.take_succ_cons]
  generalize hN : encStack s = S at *
  have hf : fields (10 :: (encVarint S.length ++ S).take j) = none := by
    unfold fields
    simp only [List.length_cons]
    rw [fieldLoop_step _ _ (by simp)]
    have ht : consumeVarint (10 :: (encVarint S.length ++ S).take j) = some (10, 1) := by
      unfold consumeVarint varintLoop; simp
    rw [ht]
    simp only [Option.bind_some, List.drop_succ_cons, List.drop_zero]
    rw [if_neg (by omega)]
    have hv : consumeValue (10 % 8) ((encVarint S.length ++ S).take j) = none := by
      show consumeValue 2 _ = none
      unfold consumeValue
      rw [if_neg (by omega), if_neg (by omega), if_pos rfl]
      by_cases hj : j < (encVarint S.length).length
      · rw [List.take_append_of_le_length (by omega)]
        have : consumeVarint ((encVarint S.length).take j) = none := varintLoop_cut 10 _ _ hj
        rw [this]
        rfl
      · rw [List.take_append, List.take_of_length_le (by omega), consumeVarint_enc _ _ hl]
        simp only [Option.bind_some]
        rw [if_neg]
        simp only [List.length_cons, List.length_append] at h1
        simp only [List.length_append, List.length_take]
        omega
    rw [hv]
    rfl
  unfold unmarshal decGlyphs
  rw [hf]
  rfl

/-- Nothing is a file without stacks. -/
theorem C93_empty : unmarshal [] = .ok {} ∧ marshal {} = .ok [] := ⟨rfl, rfl⟩

/-- **C93, what is lost.** A value beyond 32 bits is cut to 32 bits; a field with the wrong wire type is no error: it is kept as an unknown field
and the value is missing. -/
theorem C93_wrong_fields (v : Nat) (hv : v < 2 ^ 64) :
    decGlyph (wireBytes 1 (.varint v)) = some { id := some (v % 2 ^ 32) } ∧
    ∀ s : Bytes, s.length = 4 → decGlyph (wireBytes 1 (.fixed32 s)) = some { unknown := wireBytes 1 (.fixed32 s) } := by
  constructor
  · unfold decGlyph
    have := fields_flatMap (fun _ : Unit => wireBytes 1 (.varint v)) (fun _ => rawOf 1 (.varint v)) [()] (fun _ _ => rawOf_keep _ _)
      (fun _ _ => rawOf_ok _ _ (by omega) (by omega) hv)
    simp only [List.flatMap_cons, List.flatMap_nil, List.append_nil, List.map_cons, List.map_nil] at this
    rw [this]
    rfl
  · intro s hs
    unfold decGlyph
    have := fields_flatMap (fun _ : Unit => wireBytes 1 (.fixed32 s)) (fun _ => rawOf 1 (.fixed32 s)) [()] (fun _ _ => rawOf_keep _ _)
      (fun _ _ => rawOf_ok _ _ (by omega) (by omega) hs)
    simp only [List.flatMap_cons, List.flatMap_nil, List.append_nil, List.map_cons, List.map_nil] at this
    rw [this]
    simp only [Option.map_some, List.foldl_cons, List.foldl_nil, Option.some.injEq]
    rw [glyphField_unknown _ _ (by rw [rawOf_num, rawOf_val]; unfold glyphKnown; simp [Payload.wire]), rawOf_keep]
    simp

/-! ### Cases that meet the hypotheses -/

/-- A glyph of the builder: written, read back, and the bytes. -/
example : marshal (ofGlyphs [79] 0 5 [⟨65, 2, 1, -3, 4, 300, [1, 255]⟩]) =
    .ok [10, 27, 10, 1, 79, 18, 3, 48, 45, 53, 26, 17, 8, 65, 18, 2, 1, 255, 24, 2, 32, 1, 40, 5, 48, 8, 56, 172, 2] := by
  decide +kernel

/-- Fields out of order, repeated and unknown: an id after the width, twice, and a field 16 between them. -/
example : ∀ x ∈ [TField.stack [.range [50], .glyph [.width 3, .id 1, .other 16 (.varint 5), .id 2], .name [79]]], x.Ok := by
  intro x hx
  simp only [List.mem_singleton] at hx
  subst hx
  refine ⟨?_, by decide +kernel⟩
  intro y hy
  simp only [List.mem_cons, List.not_mem_nil, or_false] at hy
  rcases hy with rfl | rfl | rfl
  · show 1 < 2 ^ 64; norm_num
  · refine ⟨?_, by decide +kernel⟩
    intro z hz
    simp only [List.mem_cons, List.not_mem_nil, or_false] at hz
    rcases hz with rfl | rfl | rfl | rfl
    · show 3 < 2 ^ 32; norm_num
    · show 1 < 2 ^ 32; norm_num
    · exact ⟨by norm_num, by norm_num, by show 5 < 2 ^ 64; norm_num⟩
    · show 2 < 2 ^ 32; norm_num
  · show 1 < 2 ^ 64; norm_num

example : unmarshal ([TField.stack [.range [50], .glyph [.width 3, .id 1, .other 16 (.varint 5), .id 2], .name [79]]].flatMap TField.bytes) =
    .error (.required ⟨[⟨some [79], some [50], [{ id := some 2, width := some 3, unknown := [128, 1, 5] }], []⟩], []⟩) := by
  decide +kernel

end Verif.FontPbf
