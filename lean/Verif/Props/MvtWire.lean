import Verif.Proof.MvtWire
import Verif.Props.MvtRead

/-!
# C66, C33: tiles of any writer

Property C66: `NewTile` reads every tile of well-formed layer messages, whoever wrote it: the fields of a layer and of a feature may
come in any order and may be missing or repeated.
-/
namespace Verif.Mvt
open Verif.Go Verif.Pbf

theorem mapbox_late : LayerTagLate mapboxProto := by unfold LayerTagLate; decide
theorem lk_late : LayerTagLate lkProto := by unfold LayerTagLate; decide

/-- C66: for every sequence of layer messages with numbers in range, with fields in any order, each message but the last closed,
`NewTile` returns exactly these layers in order, and `Feature`/`LoadGeometryRaw` return exactly their features. `tile.Layers`
lists the names. Both tag schemes; any sufficiently large number `n` of loop passes. -/
theorem C66_newTile_reads_any_writer (P : Proto) (hP : P = mapboxProto ∨ P = lkProto) (nc : NumCodec) (hnc : nc.Law) (t : List (List LField))
    (ht : ∀ m ∈ t, MsgOk P nc m) (hc : ∀ m ∈ t.dropLast, Closed m) (n : Nat) (hn : (tileBytes P nc t).length + 2 < n) :
    ∃ T, newTile P nc (tileBytes P nc t) n = .ok T ∧ List.Forall₂ (LayerIs P n (tileBytes P nc t)) t T.layers ∧
      T.names = t.flatMap (List.filterMap LField.name?) := by
  have hg : P.Good ∧ LayerTagLate P := by
    rcases hP with rfl | rfl
    · exact ⟨mapbox_good, mapbox_late⟩
    · exact ⟨lk_good, lk_late⟩
  obtain ⟨out, h1, h2⟩ := newTile_fields P nc hg.1 hg.2 hnc t ht hc n hn
  exact ⟨_, h1, h2.imp (fun _ _ h => h.1), rfl⟩

/-- C66: `tile.LayerMap[name]` is the last layer of that name, and absent if no layer has the name. -/
theorem C66_layerMap (P : Proto) (hP : P = mapboxProto ∨ P = lkProto) (nc : NumCodec) (hnc : nc.Law) (t : List (List LField))
    (ht : ∀ m ∈ t, MsgOk P nc m) (hc : ∀ m ∈ t.dropLast, Closed m) (n : Nat) (hn : (tileBytes P nc t).length + 2 < n) :
    ∃ T, newTile P nc (tileBytes P nc t) n = .ok T ∧
      (∀ name, name ∉ t.map (lastOr [] LField.name?) → T.layerMap name = none) ∧
      ∀ pre m post, t = pre ++ m :: post → lastOr [] LField.name? m ∉ post.map (lastOr [] LField.name?) →
        ∃ L, T.layerMap (lastOr [] LField.name? m) = some L ∧ LayerIs P n (tileBytes P nc t) m L := by
  obtain ⟨T, h1, h2, _⟩ := C66_newTile_reads_any_writer P hP nc hnc t ht hc n hn
  have key := fun m => forall₂_last (f := lastOr [] LField.name?) (g := fun l : Layer => l.name) (fun a b h => h.1) h2 m
  exact ⟨T, h1, fun m hm => (key m).1 hm, fun pre m post e hp => (key _).2 pre m post e rfl hp⟩

/-- A tile as another writer would write it: version first, values before features, geometry before the type, a repeated
extent. -/
def sampleTile : List (List LField) :=
  [[.version 2, .name [97], .value 0 (.int 0 (-3)), .extent 512, .key [107], .feature [.geometry [9, 4, 4], .type 1, .tags [(0, 0)], .id 7], .extent 4096],
   [.value 2 (.str [120]), .feature [.id 5, .tags [(0, 0)], .tags [(0, 9)]], .key [113], .version 1, .name [98]]]

/-- It meets the conditions of C66. -/
example : (∀ m ∈ sampleTile, MsgOk mapboxProto NumCodec.standard m) ∧ ∀ m ∈ sampleTile.dropLast, Closed m := by
  refine ⟨?_, ?_⟩
  · intro m hm
    simp only [sampleTile, List.mem_cons, List.not_mem_nil, or_false] at hm
    rcases hm with rfl | rfl
    · exact ⟨by simp [LField.Ok, FField.Ok, ValOk, IsI64], by decide +kernel, by simp⟩
    · exact ⟨by simp [LField.Ok, FField.Ok, ValOk, IsI64], by decide +kernel, by simp⟩
  · intro m hm
    simp only [sampleTile, List.dropLast_cons_cons, List.dropLast_singleton, List.mem_cons, List.not_mem_nil, or_false] at hm
    subst hm
    exact ⟨.extent 4096, rfl, rfl, rfl, rfl⟩

/-- C66: why a message that is followed by another one has to be closed. A layer that ends with a feature (or a name or key) is read
past its end: the tag of the next layer is taken for a field of this layer. In the Mapbox scheme the bytes of the next layer
become a key; in the LK scheme the next layer becomes a feature. -/
theorem C66_trailing_feature_adds_garbage :
    (match newTile mapboxProto NumCodec.standard (tileBytes mapboxProto NumCodec.standard [[.name [97], .feature [.id 1]], [.name [98], .version 2]]) 100 with
      | .ok T => T.layers.map (fun l => (l.name, l.keys, l.features.length)) | _ => []) =
      [([97], [[10, 1, 98, 120, 2]], 1), ([98], [], 0)] ∧
    (match newTile lkProto NumCodec.standard (tileBytes lkProto NumCodec.standard [[.name [97], .feature [.id 1]], [.name [98], .version 2]]) 100 with
      | .ok T => T.layers.map (fun l => (l.name, l.keys, l.features.length)) | _ => []) =
      [([97], [], 2), ([98], [], 0)] := by
  decide +kernel

/-- C66: a sint_value is not decoded: the writer's -1 (zig-zag 1) is read as 1, and 1 (zig-zag 2) as 2. -/
theorem C66_sint_misread (nc : NumCodec) (hnc : nc.Law) (x : Nat) (hx : x < 9223372036854775808)
    (hfit : (msgBytes mapboxProto nc [.sint 0 (2 * x)]).length < 9223372036854775808) :
    ∃ T, newTile mapboxProto nc (tileBytes mapboxProto nc [[.sint 0 (2 * x)]]) ((tileBytes mapboxProto nc [[.sint 0 (2 * x)]]).length + 3) = .ok T ∧
      T.layers.map (·.values) = [[.uint (2 * x)]] := by
  obtain ⟨T, h1, h2, _⟩ := C66_newTile_reads_any_writer mapboxProto (.inl rfl) nc hnc [[.sint 0 (2 * x)]]
    (by simp only [List.mem_singleton, forall_eq]; exact ⟨by simp [LField.Ok]; omega, hfit, by simp⟩) (by simp) _ (Nat.lt_succ_self _)
  refine ⟨T, h1, ?_⟩
  generalize T.layers = ls at h2
  cases h2 with
  | cons h2 h3 =>
    cases h3
    obtain ⟨_, _, _, _, h5, _⟩ := h2
    simp only [List.map_cons, List.map_nil, h5]
    rfl

/-- The condition on the length holds in the standard encoding. -/
example : (msgBytes mapboxProto NumCodec.standard [.sint 0 (2 * 5)]).length < 9223372036854775808 := by decide +kernel

/-! ## C31 -/

/-- C31, exactly, for tiles of any writer: `ReadTile` returns the features layer by layer, each with the properties that `Feature` gives
(`C66_newTile_reads_any_writer`) and the property `layer`, but with the last id, type and geometry of all features of the layer
up to this one. `hgeo`: these geometries can be decoded (otherwise `ReadTile` fails as a whole). -/
theorem C31_readTile_any_writer (P : Proto) (hP : P = mapboxProto ∨ P = lkProto) (nc : NumCodec) (hnc : nc.Law) (t : List (List LField))
    (ht : ∀ m ∈ t, MsgOk P nc m) (hc : ∀ m ∈ t.dropLast, Closed m) (n : Nat) (hn : (tileBytes P nc t).length + 2 < n)
    (hgeo : ∀ m ∈ t, ∀ x ∈ withPrefixes [] (m.filterMap LField.feature?),
      ∃ g, ((x.1.filterMap FField.geometry?).getLast?).bind (loadGeometry (lastOr 0 FField.type? x.1)) = some g) :
    ∃ oss : List (List OutFeature), readTile P nc (tileBytes P nc t) true true 0 n = .ok oss.flatten ∧
      List.Forall₂ (fun m os => List.Forall₂ (fun x o => BulkFeatureIs m x.1 x.2 o) (withPrefixes [] (m.filterMap LField.feature?)) os) t oss := by
  have hg : P.Good ∧ LayerTagLate P := by
    rcases hP with rfl | rfl
    · exact ⟨mapbox_good, mapbox_late⟩
    · exact ⟨lk_good, lk_late⟩
  exact readTile_fields true 0 le_rfl P nc hg.1 hg.2 hnc t ht hc (fun _ _ _ _ => .inl rfl) n hn hgeo

/-- C31 for `ReadRawTile`: if in every feature the geometry is the last field, it gives what `ReadTile` gives (`C31_readTile_any_writer`),
before projection. -/
theorem C31_readRawTile_any_writer (P : Proto) (hP : P = mapboxProto ∨ P = lkProto) (nc : NumCodec) (hnc : nc.Law) (t : List (List LField))
    (ht : ∀ m ∈ t, MsgOk P nc m) (hc : ∀ m ∈ t.dropLast, Closed m) (hgl : ∀ m ∈ t, ∀ fs ∈ m.filterMap LField.feature?, GeomLast fs)
    (n : Nat) (hn : (tileBytes P nc t).length + 2 < n)
    (hgeo : ∀ m ∈ t, ∀ x ∈ withPrefixes [] (m.filterMap LField.feature?),
      ∃ g, ((x.1.filterMap FField.geometry?).getLast?).bind (loadGeometry (lastOr 0 FField.type? x.1)) = some g) :
    ∃ oss : List (List OutFeature), readTile P nc (tileBytes P nc t) true false 1 n = .ok oss.flatten ∧
      List.Forall₂ (fun m os => List.Forall₂ (fun x o => BulkFeatureIs m x.1 x.2 o) (withPrefixes [] (m.filterMap LField.feature?)) os) t oss := by
  have hg : P.Good ∧ LayerTagLate P := by
    rcases hP with rfl | rfl
    · exact ⟨mapbox_good, mapbox_late⟩
    · exact ⟨lk_good, lk_late⟩
  exact readTile_fields false 1 (by decide) P nc hg.1 hg.2 hnc t ht hc (fun m hm fs hfs => .inr (hgl m hm fs hfs)) n hn hgeo

/-- Two features: in one the geometry is followed by the tags, in the other by the id. -/
def geometryFirst : Bytes := tileBytes mapboxProto NumCodec.standard
  [[.name [97], .key [107], .value 0 (.int 0 5), .feature [.type 1, .geometry [9, 4, 4], .tags [(0, 0)]],
    .feature [.type 1, .geometry [9, 4, 4], .id 7], .extent 4096]]

/-- C31: why the geometry has to come last for `ReadRawTile`: it skips one byte too many after a geometry. `ReadTile` returns the
property of the first feature and the id of the second, `ReadRawTile` loses both. -/
theorem C31_raw_needs_geometry_last :
    (match readTile mapboxProto NumCodec.standard geometryFirst true true 0 200 with
      | .ok os => os.map (fun (o : OutFeature) => (o.id, o.props.length)) | _ => []) = [(none, 2), (some 7, 1)] ∧
    (match readTile mapboxProto NumCodec.standard geometryFirst true false 1 200 with
      | .ok os => os.map (fun (o : OutFeature) => (o.id, o.props.length)) | _ => []) = [(none, 1), (none, 1)] := by
  decide +kernel

/-- The conditions of `C31_readRawTile_any_writer` are met by a tile with two features in one layer. -/
example : ∃ t : List (List LField), (∀ m ∈ t, MsgOk mapboxProto NumCodec.standard m) ∧ (∀ m ∈ t, ∀ fs ∈ m.filterMap LField.feature?, GeomLast fs) ∧
    (∀ m ∈ t, ∀ x ∈ withPrefixes [] (m.filterMap LField.feature?),
      ∃ g, ((x.1.filterMap FField.geometry?).getLast?).bind (loadGeometry (lastOr 0 FField.type? x.1)) = some g) ∧
    (match readTile mapboxProto NumCodec.standard (tileBytes mapboxProto NumCodec.standard t) true false 1 200 with
      | .ok os => os.map (·.geom) | _ => []) = [.point ⟨2, 2⟩, .lineString [⟨3, 3⟩, ⟨4, 3⟩]] := by
  refine ⟨[[.version 2, .feature [.type 1, .id 7, .geometry [9, 4, 4]], .name [97], .feature [.tags [], .type 2, .geometry [9, 6, 6, 10, 2, 0]], .extent 512]],
    ?_, ?_, ?_, by decide +kernel⟩
  · intro m hm
    simp only [List.mem_singleton] at hm
    subst hm
    exact ⟨by simp [LField.Ok, FField.Ok], by decide +kernel, by simp⟩
  · intro m hm fs hfs
    simp only [List.mem_singleton] at hm
    subst hm
    simp only [List.filterMap, LField.feature?, List.mem_cons, List.not_mem_nil, or_false] at hfs
    rcases hfs with rfl | rfl <;> · unfold GeomLast; decide +kernel
  · intro m hm x hx
    simp only [List.mem_singleton] at hm
    subst hm
    simp only [List.filterMap, LField.feature?, withPrefixes, List.mem_cons, List.not_mem_nil, or_false] at hx
    rcases hx with rfl | rfl
    · exact ⟨.point ⟨2, 2⟩, by decide +kernel⟩
    · exact ⟨.lineString [⟨3, 3⟩, ⟨4, 3⟩], by decide +kernel⟩

/-- C31: a feature with its own id, type and geometry inherits nothing. -/
theorem C31_complete_feature_inherits_nothing (m : List LField) (pre fs : List FField) (o : OutFeature) (h : BulkFeatureIs m (pre ++ fs) fs o)
    (h1 : fs.filterMap FField.id? ≠ []) (h2 : fs.filterMap FField.type? ≠ []) (h3 : fs.filterMap FField.geometry? ≠ []) : BulkFeatureIs m fs fs o := by
  have own : ∀ {β : Type} (d : β) (f : FField → Option β), fs.filterMap f ≠ [] → lastOr d f (pre ++ fs) = lastOr d f fs := by
    intro β d f hne
    rw [lastOr_append]
    unfold lastOr
    cases hl : (fs.filterMap f).getLast? with
    | none => simp at hl; exact absurd hl (by simpa using hne)
    | some v => rfl
  obtain ⟨g1, g2, g3, g4⟩ := h
  rw [own 0 _ h1] at g1
  rw [own 0 _ h2, List.filterMap_append, List.getLast?_append] at g4
  refine ⟨g1, g2, g3, ?_⟩
  cases hl : (fs.filterMap FField.geometry?).getLast? with
  | none => simp at hl; exact absurd hl (by simpa using h3)
  | some v => rw [hl] at g4; simpa using g4

/-- Two points without id after one with id 7: the bulk reader gives all three the id 7, and the third the type of the second. -/
example : ∃ oss : List (List OutFeature), readTile mapboxProto NumCodec.standard (tileBytes mapboxProto NumCodec.standard
      [[.feature [.id 7, .type 1, .geometry [9, 4, 4]], .feature [.type 1, .geometry [9, 6, 6]], .feature [.geometry [9, 8, 8]], .version 2]]) true true 0 100 = .ok oss.flatten ∧
    oss.flatten.map (·.id) = [some 7, some 7, some 7] := by
  refine ⟨[[⟨some 7, [(layerKey, .str [])], .point ⟨2, 2⟩, 4096⟩, ⟨some 7, [(layerKey, .str [])], .point ⟨3, 3⟩, 4096⟩,
    ⟨some 7, [(layerKey, .str [])], .point ⟨4, 4⟩, 4096⟩]], by decide +kernel, rfl⟩

/-! ## C33 -/

theorem forall₂_sublist {α β : Type} {R : α → β → Prop} {xs : List α} {ys : List β} (h : List.Forall₂ R xs ys) :
    ∀ sub : List β, sub.Sublist ys → ∃ xs', xs'.Sublist xs ∧ List.Forall₂ R xs' sub := by
  induction h with
  | nil => intro sub hs; cases hs; exact ⟨[], .slnil, .nil⟩
  | @cons x y xs ys h _ ih =>
    intro sub hs
    cases hs with
    | cons _ hs =>
      obtain ⟨xs', h1, h2⟩ := ih sub hs
      exact ⟨xs', h1.cons _, h2⟩
    | cons_cons _ hs =>
      obtain ⟨xs', h1, h2⟩ := ih _ hs
      exact ⟨x :: xs', h1.cons_cons _, .cons h h2⟩

theorem flatMap_sublist_length {α β : Type} (f : α → List β) {xs ys : List α} (h : xs.Sublist ys) : (xs.flatMap f).length ≤ (ys.flatMap f).length := by
  induction h with
  | slnil => exact le_rfl
  | cons y _ ih => rw [List.flatMap_cons, List.length_append]; omega
  | cons_cons y _ ih => rw [List.flatMap_cons, List.flatMap_cons, List.length_append, List.length_append]; omega

theorem render_fields (nc : NumCodec) (b : Bytes) (ms : List (List LField)) (order : List Layer)
    (h : List.Forall₂ (fun (m : List LField) (o : Layer) => o.endPos = o.startPos + (msgBytes mapboxProto nc m).length ∧
      ∃ s, At b o.startPos (msgBytes mapboxProto nc m ++ s)) ms order) : render b order = some (tileBytes mapboxProto nc ms) := by
  induction h with
  | nil => rfl
  | @cons m o ms order h1 _ ih =>
    obtain ⟨he, s, hat⟩ := h1
    have h0 := hat.nonneg
    have h2 := hat.pos
    rw [List.length_append] at h2
    rw [render, if_pos ⟨h0, by omega, by omega⟩, ih, Option.map_some]
    congr 1
    have e : (o.endPos - o.startPos).toNat = (msgBytes mapboxProto nc m).length := by omega
    rw [e, hat.slice]
    rfl

/-- C33, Mapbox scheme, every tile of well-formed closed layers, whoever wrote it: for every order in which the layer map is
iterated — and also when it holds only some of the layers because names repeat — `Render` succeeds and `NewTile` of its result
reads back the same layer messages in that order: same names, extents, versions, keys, values and features. -/
theorem C33_render_any_tile (nc : NumCodec) (hnc : nc.Law) (t : List (List LField)) (ht : ∀ m ∈ t, MsgOk mapboxProto nc m)
    (hc : ∀ m ∈ t, Closed m) (n : Nat) (hn : (tileBytes mapboxProto nc t).length + 2 < n)
    (T : TS) (hT : newTile mapboxProto nc (tileBytes mapboxProto nc t) n = .ok T) (order : List Layer) (ho : order.Subperm T.layers) :
    ∃ (ms : List (List LField)) (b' : Bytes) (T' : TS), ms.Subperm t ∧ List.Forall₂ (LayerIs mapboxProto n (tileBytes mapboxProto nc t)) ms order ∧
      render (tileBytes mapboxProto nc t) order = some b' ∧ newTile mapboxProto nc b' n = .ok T' ∧
      List.Forall₂ (LayerIs mapboxProto n b') ms T'.layers := by
  obtain ⟨out, h1, h2⟩ := newTile_fields mapboxProto nc mapbox_good mapbox_late hnc t ht (fun m hm => hc m (List.dropLast_subset _ hm)) n hn
  rw [hT] at h1
  simp only [Res.ok.injEq] at h1
  subst h1
  simp only at ho
  obtain ⟨sub, hp, hs⟩ := ho
  obtain ⟨t1, hs1, hf1⟩ := forall₂_sublist h2 sub hs
  obtain ⟨ms, hf2, hp2⟩ := List.perm_comp_forall₂ hp.symm hf1.flip
  have hf3 := hf2.flip
  have hsub : ms.Subperm t := ⟨t1, hp2.symm, hs1⟩
  have hmem : ∀ m ∈ ms, m ∈ t := fun m hm => hsub.subset hm
  have hlen : (tileBytes mapboxProto nc ms).length ≤ (tileBytes mapboxProto nc t).length := by
    have e1 : (tileBytes mapboxProto nc ms).length = (tileBytes mapboxProto nc t1).length := (hp2.flatMap_right _).length_eq
    rw [e1]
    exact flatMap_sublist_length _ hs1
  have hren := render_fields nc _ ms order (hf3.imp (fun _ _ h => h.2))
  obtain ⟨T', g1, g2, _⟩ := C66_newTile_reads_any_writer mapboxProto (.inl rfl) nc hnc ms (fun m hm => ht m (hmem m hm))
    (fun m hm => hc m (hmem m (List.dropLast_subset _ hm))) n (by omega)
  exact ⟨ms, _, T', hsub, hf3.imp (fun _ _ h => h.1), hren, g1, g2⟩

/-- The sample tile with a version at the end of each layer: both layers are closed, and it is read as two layers, which can be
rendered in the other order. -/
example : (∀ m ∈ sampleTile.map (· ++ [.version 2]), Closed m) ∧
    (match newTile mapboxProto NumCodec.standard (tileBytes mapboxProto NumCodec.standard (sampleTile.map (· ++ [.version 2]))) 200 with
      | .ok T => T.layers.map (fun l => (l.name, l.features.length)) | _ => []) = [([97], 1), ([98], 1)] := by
  refine ⟨?_, by decide +kernel⟩
  intro m hm
  simp only [sampleTile, List.map_cons, List.map_nil, List.mem_cons, List.not_mem_nil, or_false] at hm
  rcases hm with rfl | rfl <;> exact ⟨.version 2, rfl, rfl, rfl, rfl⟩

end Verif.Mvt
