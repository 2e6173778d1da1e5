import Verif.Props.MvtResult
import Verif.Props.MvtWire

/-!
# C83: layers of any writer at the beginning of a tile that ends badly
-/
namespace Verif.Mvt
open Verif.Go Verif.Pbf

theorem noTag_tileBytes_cons (P : Proto) (nc : NumCodec) (hL : LayerTagLate P) (m : List LField) (t : List (List LField)) (tail : Bytes) (i : Nat) (h3 : 3 ≤ i)
    (h6 : i < 6) (w : Nat) : NoTag (tileBytes P nc (m :: t) ++ tail) (rankTag P i).1 w := by
  have : tileBytes P nc (m :: t) ++ tail = tagByte P.layers 2 :: (encVarint (msgBytes P nc m).length ++ (msgBytes P nc m ++ (tileBytes P nc t ++ tail))) := by
    simp [tileBytes, encBytes]
  rw [this]
  refine noTag_tagByte _ _ _ _ _ (by decide) (fun h => ?_)
  have ci : i = 3 ∨ i = 4 ∨ i = 5 := by omega
  rcases ci with rfl | rfl | rfl
  · exact hL.1 h.1
  · exact hL.2.1 h.1
  · exact hL.2.2 h.1

/-- The layer messages at the beginning of a buffer, whatever follows. -/
theorem newTile_prefix_fields (P : Proto) (nc : NumCodec) (hP : P.Good) (hL : LayerTagLate P) (hnc : nc.Law) (t : List (List LField))
    (ht : ∀ m ∈ t, MsgOk P nc m) (hc : ∀ m ∈ t.dropLast, Closed m) (hv : ∀ m, t.getLast? = some m → ∃ v, m.getLast? = some (.version v))
    (tail : Bytes) (n : Nat) (hn : (tileBytes P nc t ++ tail).length + 2 < n) :
    ∃ st : TS, At (tileBytes P nc t ++ tail) st.pos tail ∧ List.Forall₂ (LayerIs P n (tileBytes P nc t ++ tail)) t st.layers ∧
      st.names = t.flatMap (List.filterMap LField.name?) ∧
      whileK (fun st : TS => decide (st.pos < (tileBytes P nc t ++ tail).length)) (tileBody P nc (tileBytes P nc t ++ tail) n) n ⟨0, [], []⟩ =
        whileK (fun st : TS => decide (st.pos < (tileBytes P nc t ++ tail).length)) (tileBody P nc (tileBytes P nc t ++ tail) n) (n - t.length) st := by
  set b := tileBytes P nc t ++ tail with hb
  have hll : t.length ≤ b.length := by
    have : t.length ≤ (tileBytes P nc t).length := flatMap_length_ge _ _ (fun x _ => by simp [encBytes])
    rw [hb, List.length_append]; omega
  obtain ⟨st, ⟨done, hd, hat, hfa, hnm⟩, e⟩ := whileK_list (fun st : TS => decide (st.pos < b.length)) (tileBody P nc b n)
    (fun xs st => ∃ done, t = done ++ xs ∧ At b st.pos (tileBytes P nc xs ++ tail) ∧ List.Forall₂ (LayerIs P n b) done st.layers ∧
      st.names = done.flatMap (List.filterMap LField.name?))
    (by
      rintro m xs st ⟨done, hd, hat, hfa, hnm⟩
      have hm : m ∈ t := by rw [hd]; simp
      have hcons : tileBytes P nc (m :: xs) = encBytes P.layers (msgBytes P nc m) ++ tileBytes P nc xs := rfl
      rw [hcons, List.append_assoc, encBytes_app] at hat
      have hfit := (ht m hm).fits
      have hst : Stops P m (tileBytes P nc xs ++ tail) := by
        cases xs with
        | nil =>
          right
          obtain ⟨v, hv⟩ := hv m (by rw [hd]; simp)
          exact ⟨_, hv, rfl⟩
        | cons y xs =>
          left
          refine ⟨fun i h3 h6 w => noTag_tileBytes_cons P nc hL y xs tail i h3 h6 w, ?_⟩
          right
          refine endsLate_of_closed (hc m ?_)
          rw [hd, List.dropLast_append_of_ne_nil (by simp)]
          simp
      have hlb : (msgBytes P nc m).length < b.length := by
        have h1 := flatMap_length_mem (fun m => encBytes P.layers (msgBytes P nc m)) t m hm
        have h2 := encBytes_length P.layers (msgBytes P nc m)
        have h3 := lt_of_lt_of_le h2 h1
        rw [hb, List.length_append]
        exact Nat.lt_of_lt_of_le h3 (Nat.le_add_right _ _)
      have hpos := hat.pos
      simp only [List.length_cons] at hpos
      refine ⟨by simp only [decide_eq_true_eq]; omega, ?_⟩
      have h1 := hat.adv1
      obtain ⟨ps, ext, hnl, hext, hps⟩ := newLayer_fields P nc hP hnc b _ m (ht m hm) _ hst h1.adv n (by omega) false
      have hsz : ((msgBytes P nc m).length : Int) ≠ 0 := by
        have := msgOk_pos (ht m hm)
        omega
      refine ⟨⟨st.pos + 1 + ((encVarint (msgBytes P nc m).length).length : Int) + (msgBytes P nc m).length,
        st.layers ++ [⟨lastOr [] LField.name? m, ext, (lastOr 0 LField.version? m : Nat), m.filterMap LField.key?, m.filterMap LField.value?, ps,
          st.pos + 1 + ((encVarint (msgBytes P nc m).length).length : Int), st.pos + 1 + ((encVarint (msgBytes P nc m).length).length : Int) + (msgBytes P nc m).length⟩],
        st.names ++ m.filterMap LField.name?⟩, ?_, done ++ [m], by simp [hd], ?_, ?_, ?_⟩
      rotate_left
      · exact At.adv h1.adv
      · refine List.rel_append hfa (.cons ?_ .nil)
        refine ⟨rfl, hext, rfl, rfl, rfl, ?_⟩
        have hff : ∀ fs ∈ m.filterMap LField.feature?, (∀ x ∈ fs, x.Ok) ∧ (featBytes P fs).length < 9223372036854775808 ∧ fs.length < n := by
          intro fs hfs
          obtain ⟨x, hx, hxf⟩ := List.mem_filterMap.mp hfs
          have hxo := (ht m hm).ok x hx
          cases x <;> simp [LField.feature?] at hxf
          rw [hxf] at hx hxo
          have h2 := flatMap_length_mem (LField.bytes P nc) m _ hx
          rw [LField.bytes] at h2
          have h3 := encBytes_length P.features (featBytes P fs)
          unfold msgBytes at hfit hlb
          refine ⟨hxo, by omega, ?_⟩
          have h4 : fs.length ≤ (featBytes P fs).length :=
            flatMap_length_ge _ _ (fun x _ => by cases x <;> simp [FField.bytes, encUInt, encPacked, encBytes])
          omega
        rw [List.forall₂_map_right_iff] at hps
        clear hnl
        generalize m.filterMap LField.feature? = fss at hps hff
        simp only
        generalize hlay : (⟨lastOr [] LField.name? m, ext, (lastOr 0 LField.version? m : Nat), m.filterMap LField.key?, m.filterMap LField.value?, ps,
          st.pos + 1 + ((encVarint (msgBytes P nc m).length).length : Int), st.pos + 1 + ((encVarint (msgBytes P nc m).length).length : Int) + (msgBytes P nc m).length⟩ : Layer) = lay
        clear hlay
        induction hps with
        | nil => exact .nil
        | @cons p fs ps fss h1 _ ih =>
          obtain ⟨k1, k2, k3⟩ := hff fs (by simp)
          exact .cons (readFeature_fields P hP b lay n fs p k1 k2 k3 h1) (ih (fun fs hfs => hff fs (by simp [hfs])))
      · simp [hnm]
      · unfold tileBody
        rw [readTag_at hat, Res.of_some, Res.bind_ok]
        have e1 : tagByte P.layers 2 / 8 = P.layers := by unfold tagByte; omega
        have e2 : tagByte P.layers 2 % 8 = 2 := by unfold tagByte; omega
        simp only [e1, e2]
        rw [if_pos ⟨trivial, trivial⟩, readVarint_at h1 hfit, Res.of_some, Res.bind_ok]
        simp only
        rw [if_pos hsz, hnl, Res.bind_ok])
    t n ⟨0, [], []⟩ (by omega) ⟨[], rfl, by rw [← hb]; exact At.zero b, .nil, rfl⟩
  have hd' : done = t := by simpa using hd.symm
  subst hd'
  exact ⟨st, by simpa [tileBytes] using hat, hfa, hnm, e⟩

/-- C83: whatever follows the layers `t` of any writer, the last of which ends with its version (a writer that puts the version
last), and whether or not `NewTile` returns an error, its tile starts with the layers that the messages say, and `tile.Layers` with
their names. -/
theorem C83_newTile_keeps_layers_any_writer (P : Proto) (hP : P = mapboxProto ∨ P = lkProto) (nc : NumCodec) (hnc : nc.Law) (t : List (List LField))
    (ht : ∀ m ∈ t, MsgOk P nc m) (hc : ∀ m ∈ t.dropLast, Closed m) (hv : ∀ m, t.getLast? = some m → ∃ v, m.getLast? = some (.version v))
    (tail : Bytes) (n : Nat) (hn : (tileBytes P nc t ++ tail).length + 2 < n) (T : TS) (err : Bool)
    (h : newTileCall P nc (tileBytes P nc t ++ tail) n = some (T, err)) :
    ∃ good more, T.layers = good ++ more ∧ List.Forall₂ (LayerIs P n (tileBytes P nc t ++ tail)) t good ∧
      t.flatMap (List.filterMap LField.name?) <+: T.names := by
  have hg : P.Good ∧ LayerTagLate P := by
    rcases hP with rfl | rfl
    · exact ⟨mapbox_good, mapbox_late⟩
    · exact ⟨lk_good, lk_late⟩
  obtain ⟨st, _, hfa, hnm, e⟩ := newTile_prefix_fields P nc hg.1 hg.2 hnc t ht hc hv tail n hn
  generalize hb : tileBytes P nc t ++ tail = b at *
  have hinv := whileK_inv (fun st : TS => decide (st.pos < b.length)) (tileBody P nc b n) (fun s => st.layers <+: s.layers ∧ st.names <+: s.names)
    (fun s s' => tileBody_appends P nc b n st.layers st.names s s') (n - t.length) st ⟨List.prefix_rfl, List.prefix_rfl⟩
  rw [← e] at hinv
  obtain ⟨ht1, ht2, _⟩ := newTileCall_state h
  rw [ht1] at hinv
  obtain ⟨⟨more, hmore⟩, hpn⟩ := hinv
  have hpn := hpn.trans ht2
  exact ⟨st.layers, more, hmore.symm, hfa, by rw [← hnm]; exact hpn⟩

/-- Two layers with fields in an order that this package does not write, the second ending with its version. -/
def versionLastTile : List (List LField) :=
  [[.version 2, .name [97], .value 0 (.int 0 (-3)), .key [107], .feature [.geometry [9, 4, 4], .type 1, .tags [(0, 0)], .id 7], .extent 512],
   [.feature [.id 5], .name [98], .version 1]]

/-- It meets the conditions of C83; cut in the middle of a third layer, `NewTile` returns both layers and an error. -/
theorem C83_any_writer_example :
    ((∀ m ∈ versionLastTile, MsgOk mapboxProto NumCodec.standard m) ∧ (∀ m ∈ versionLastTile.dropLast, Closed m) ∧
      ∀ m, versionLastTile.getLast? = some m → ∃ v, m.getLast? = some (.version v)) ∧
    ((newTileCall mapboxProto NumCodec.standard (tileBytes mapboxProto NumCodec.standard versionLastTile ++ [26, 9, 10, 7, 97]) 200).map
      (fun r => (r.1.layers.map (fun l => (l.name, l.extent, l.features.length)), r.1.names, r.2))) =
      some ([([97], 512, 1), ([98], 4096, 1)], [[97], [98]], true) := by
  refine ⟨⟨?_, ?_, ?_⟩, by decide +kernel⟩
  · intro m hm
    simp only [versionLastTile, List.mem_cons, List.not_mem_nil, or_false] at hm
    rcases hm with rfl | rfl
    · exact ⟨by simp [LField.Ok, FField.Ok, ValOk, IsI64], by decide +kernel, by simp⟩
    · exact ⟨by simp [LField.Ok, FField.Ok], by decide +kernel, by simp⟩
  · intro m hm
    simp only [versionLastTile, List.dropLast_cons_cons, List.dropLast_singleton, List.mem_cons, List.not_mem_nil, or_false] at hm
    subst hm
    exact ⟨.extent 512, rfl, rfl, rfl, rfl⟩
  · intro m hm
    simp only [versionLastTile, List.getLast?_cons_cons, List.getLast?_singleton, Option.some.injEq] at hm
    subst hm
    exact ⟨1, rfl⟩

/-- C83: why the last layer has to end with its version: after a layer that ends with its extent, the bytes `120 9` beyond its end are
taken for its version. -/
theorem C83_bytes_behind_layer_read_as_version :
    ((newTileCall mapboxProto NumCodec.standard (tileBytes mapboxProto NumCodec.standard [[.version 2, .name [97], .extent 512]] ++ [120, 9]) 100).map
      (fun r => r.1.layers.map (fun l => (l.name, l.extent, l.version)))) = some [([97], 512, 9)] := by
  decide +kernel

/-- The bulk loop on the layer messages at the beginning of a buffer, whatever follows. -/
theorem readTile_prefix_fields (aw : Bool) (skip : Int) (hsk : 0 ≤ skip) (P : Proto) (nc : NumCodec) (hP : P.Good) (hL : LayerTagLate P) (hnc : nc.Law) (t : List (List LField))
    (ht : ∀ m ∈ t, MsgOk P nc m) (hc : ∀ m ∈ t.dropLast, Closed m) (hv : ∀ m, t.getLast? = some m → ∃ v, m.getLast? = some (.version v))
    (hgl : ∀ m ∈ t, ∀ fs ∈ m.filterMap LField.feature?, skip = 0 ∨ GeomLast fs) (tail : Bytes) (n : Nat) (hn : (tileBytes P nc t ++ tail).length + 2 < n)
    (hgeo : ∀ m ∈ t, ∀ x ∈ withPrefixes [] (m.filterMap LField.feature?), ∃ g, ((x.1.filterMap FField.geometry?).getLast?).bind (loadGeometry (lastOr 0 FField.type? x.1)) = some g) :
    ∃ (st : BS) (oss : List (List OutFeature)), st.outs = oss.flatten ∧
      List.Forall₂ (fun m os => List.Forall₂ (fun x o => BulkFeatureIs m x.1 x.2 o) (withPrefixes [] (m.filterMap LField.feature?)) os) t oss ∧
      whileK (fun st : BS => decide (st.pos < (tileBytes P nc t ++ tail).length)) (bulkBody P nc (tileBytes P nc t ++ tail) true aw skip n) n ⟨0, []⟩ =
        whileK (fun st : BS => decide (st.pos < (tileBytes P nc t ++ tail).length)) (bulkBody P nc (tileBytes P nc t ++ tail) true aw skip n) (n - t.length) st := by
  set b := tileBytes P nc t ++ tail with hb
  let R : List LField → List OutFeature → Prop := fun m os => List.Forall₂ (fun x o => BulkFeatureIs m x.1 x.2 o) (withPrefixes [] (m.filterMap LField.feature?)) os
  have hll : t.length ≤ b.length := by
    have : t.length ≤ (tileBytes P nc t).length := flatMap_length_ge _ _ (fun x _ => by simp [encBytes])
    rw [hb, List.length_append]; omega
  obtain ⟨st, ⟨done, oss, hd, hat, hfa, hnm⟩, e⟩ := whileK_list (fun st : BS => decide (st.pos < b.length)) (bulkBody P nc b true aw skip n)
    (fun xs st => ∃ done oss, t = done ++ xs ∧ At b st.pos (tileBytes P nc xs ++ tail) ∧ List.Forall₂ R done oss ∧ st.outs = oss.flatten)
    (by
      rintro m xs st ⟨done, oss, hd, hat, hfa, hnm⟩
      have hm : m ∈ t := by rw [hd]; simp
      have hcons : tileBytes P nc (m :: xs) = encBytes P.layers (msgBytes P nc m) ++ tileBytes P nc xs := rfl
      rw [hcons, List.append_assoc, encBytes_app] at hat
      have hfit := (ht m hm).fits
      have hst : Stops P m (tileBytes P nc xs ++ tail) := by
        cases xs with
        | nil =>
          right
          obtain ⟨v, hv⟩ := hv m (by rw [hd]; simp)
          exact ⟨_, hv, rfl⟩
        | cons y xs =>
          left
          refine ⟨fun i h3 h6 w => noTag_tileBytes_cons P nc hL y xs tail i h3 h6 w, ?_⟩
          right
          refine endsLate_of_closed (hc m ?_)
          rw [hd, List.dropLast_append_of_ne_nil (by simp)]
          simp
      have hlb : (msgBytes P nc m).length < b.length := by
        have h1 := flatMap_length_mem (fun m => encBytes P.layers (msgBytes P nc m)) t m hm
        have h2 := encBytes_length P.layers (msgBytes P nc m)
        have h3 := lt_of_lt_of_le h2 h1
        rw [hb, List.length_append]
        exact Nat.lt_of_lt_of_le h3 (Nat.le_add_right _ _)
      have hpos := hat.pos
      simp only [List.length_cons] at hpos
      refine ⟨by simp only [decide_eq_true_eq]; omega, ?_⟩
      have h1 := hat.adv1
      obtain ⟨ps, ext, hnl, hext, hps⟩ := newLayer_fields P nc hP hnc b _ m (ht m hm) _ hst h1.adv n (by omega) aw
      have hsz : ((msgBytes P nc m).length : Int) ≠ 0 := by
        have := msgOk_pos (ht m hm)
        omega
      have hff : ∀ fs ∈ m.filterMap LField.feature?, (∀ x ∈ fs, x.Ok) ∧ (featBytes P fs).length < 9223372036854775808 ∧ fs.length < n := by
        intro fs hfs
        obtain ⟨x, hx, hxf⟩ := List.mem_filterMap.mp hfs
        have hxo := (ht m hm).ok x hx
        cases x <;> simp [LField.feature?] at hxf
        rw [hxf] at hx hxo
        have h2 := flatMap_length_mem (LField.bytes P nc) m _ hx
        rw [LField.bytes] at h2
        have h3 := encBytes_length P.features (featBytes P fs)
        unfold msgBytes at hfit hlb
        refine ⟨hxo, by omega, ?_⟩
        have h4 : fs.length ≤ (featBytes P fs).length :=
          flatMap_length_ge _ _ (fun x _ => by cases x <;> simp [FField.bytes, encUInt, encPacked, encBytes])
        omega
      rw [List.forall₂_map_right_iff] at hps
      obtain ⟨os, q1, q2⟩ := bulkFeatures_fields P hP b ⟨lastOr [] LField.name? m, ext, (lastOr 0 LField.version? m : Nat), m.filterMap LField.key?, m.filterMap LField.value?, ps,
          st.pos + 1 + ((encVarint (msgBytes P nc m).length).length : Int), st.pos + 1 + ((encVarint (msgBytes P nc m).length).length : Int) + (msgBytes P nc m).length⟩
        skip hsk n m rfl rfl rfl hext (m.filterMap LField.feature?) [] ⟨0, 0, 0⟩ ps (hgl m hm) hff hps (hgeo m hm) (by simp [lastOr]) (by simp [lastOr]) (by simp)
      refine ⟨⟨st.pos + 1 + ((encVarint (msgBytes P nc m).length).length : Int) + (msgBytes P nc m).length, st.outs ++ os⟩, ?_, done ++ [m], oss ++ [os], by simp [hd], ?_, ?_, ?_⟩
      rotate_left
      · exact At.adv h1.adv
      · exact List.rel_append hfa (.cons q2 .nil)
      · simp [hnm]
      · unfold bulkBody
        rw [readTag_at hat, Res.of_some, Res.bind_ok]
        have e1 : tagByte P.layers 2 / 8 = P.layers := by unfold tagByte; omega
        have e2 : tagByte P.layers 2 % 8 = 2 := by unfold tagByte; omega
        simp only [e1, e2]
        rw [if_pos ⟨trivial, trivial⟩, readVarint_at h1 hfit, Res.of_some, Res.bind_ok]
        simp only
        rw [if_pos hsz, hnl, Res.bind_ok]
        simp only
        rw [q1, Res.bind_ok])
    t n ⟨0, []⟩ (by omega) ⟨[], [], rfl, by rw [← hb]; exact At.zero b, .nil, rfl⟩
  have hd' : done = t := by simpa using hd.symm
  subst hd'
  exact ⟨st, oss, hnm, hfa, e⟩

/-- C83: the bytes are layers `t` of any writer, the last of which ends with its version, all of whose features, with what is carried
over from the feature before, have a geometry of a known type, followed by anything. Whenever `ReadTile` returns, with an error or
not, the features it returns begin with those of these layers. -/
theorem C83_readTile_keeps_features_any_writer (P : Proto) (hP : P = mapboxProto ∨ P = lkProto) (nc : NumCodec) (hnc : nc.Law) (t : List (List LField))
    (ht : ∀ m ∈ t, MsgOk P nc m) (hc : ∀ m ∈ t.dropLast, Closed m) (hv : ∀ m, t.getLast? = some m → ∃ v, m.getLast? = some (.version v))
    (hgeo : ∀ m ∈ t, ∀ x ∈ withPrefixes [] (m.filterMap LField.feature?),
      ∃ g, ((x.1.filterMap FField.geometry?).getLast?).bind (loadGeometry (lastOr 0 FField.type? x.1)) = some g)
    (tail : Bytes) (n : Nat) (hn : (tileBytes P nc t ++ tail).length + 2 < n) (os : List OutFeature) (err : Bool)
    (h : readTileCall P nc (tileBytes P nc t ++ tail) true n = some (os, err)) :
    ∃ (oss : List (List OutFeature)) (more : List OutFeature), os = oss.flatten ++ more ∧
      List.Forall₂ (fun m os => List.Forall₂ (fun x o => BulkFeatureIs m x.1 x.2 o) (withPrefixes [] (m.filterMap LField.feature?)) os) t oss := by
  have hg : P.Good ∧ LayerTagLate P := by
    rcases hP with rfl | rfl
    · exact ⟨mapbox_good, mapbox_late⟩
    · exact ⟨lk_good, lk_late⟩
  obtain ⟨st, oss, hou, hfa, e⟩ := readTile_prefix_fields true 0 le_rfl P nc hg.1 hg.2 hnc t ht hc hv (fun _ _ _ _ => .inl rfl) tail n hn hgeo
  generalize hb : tileBytes P nc t ++ tail = b at *
  have hinv := whileK_inv (fun st : BS => decide (st.pos < b.length)) (bulkBody P nc b true true 0 n) (fun s => st.outs <+: s.outs)
    (fun s s' => bulkBody_appends P nc b true true 0 n st.outs s s') (n - t.length) st List.prefix_rfl
  rw [← e] at hinv
  have ht : (whileK (fun st : BS => decide (st.pos < b.length)) (bulkBody P nc b true true 0 n) n ⟨0, []⟩).1.outs = os := by
    unfold readTileCall at h
    generalize whileK (fun st : BS => decide (st.pos < b.length)) (bulkBody P nc b true true 0 n) n ⟨0, []⟩ = x at h
    obtain ⟨s, q⟩ := x
    cases q <;> simp at h <;> exact h.1
  rw [ht] at hinv
  obtain ⟨more, hmore⟩ := hinv
  exact ⟨oss, more, by rw [← hou]; exact hmore.symm, hfa⟩

/-- A tile of another writer that meets the conditions of the theorem about `ReadTile`, cut in the middle of a third layer: both
features are returned with an error, the second with the id of the first of its layer carried over. -/
def versionLastTile2 : List (List LField) :=
  [[.version 2, .name [97], .feature [.geometry [9, 4, 4], .type 1, .id 7], .feature [.type 1, .geometry [9, 6, 2]], .extent 512],
   [.feature [.type 1, .geometry [9, 2, 2]], .name [98], .version 1]]

theorem C83_readTile_any_writer_example :
    (∀ m ∈ versionLastTile2, ∀ x ∈ withPrefixes [] (m.filterMap LField.feature?),
      ∃ g, ((x.1.filterMap FField.geometry?).getLast?).bind (loadGeometry (lastOr 0 FField.type? x.1)) = some g) ∧
    ((readTileCall mapboxProto NumCodec.standard (tileBytes mapboxProto NumCodec.standard versionLastTile2 ++ [26, 9, 10, 7, 97]) true 200).map
      (fun r => (r.1.map (fun o => (o.id, o.geom, o.extent)), r.2))) =
      some ([(some 7, .point (2, 2), 512), (some 7, .point (3, 1), 512), (none, .point (1, 1), 4096)], true) := by
  refine ⟨?_, by decide +kernel⟩
  intro m hm
  simp only [versionLastTile2, List.mem_cons, List.not_mem_nil, or_false] at hm
  rcases hm with rfl | rfl
  · intro x hx
    simp only [List.filterMap, LField.feature?, withPrefixes, List.mem_cons, List.not_mem_nil, or_false] at hx
    rcases hx with rfl | rfl
    · exact ⟨.point (2, 2), by decide +kernel⟩
    · exact ⟨.point (3, 1), by decide +kernel⟩
  · intro x hx
    simp only [List.filterMap, LField.feature?, withPrefixes, List.mem_cons, List.not_mem_nil, or_false] at hx
    subst hx
    exact ⟨.point (1, 1), by decide +kernel⟩

theorem nextTag_names {b : Bytes} {s s' : LS} {q : Int} {l : Layer} (h : nextTag b s q l = some s') : s'.names = s.names := by
  simp only [nextTag, Option.map_eq_some_iff] at h
  obtain ⟨_, _, rfl⟩ := h
  rfl

/-- The rest of a pass of the layer loop does not change the names. -/
theorem passRest_names (P : Proto) (nc : NumCodec) (b : Bytes) (n : Nat) (aw : Bool) (nm : List Bytes) (s1 s' : LS) (k1 : nm <+: s1.names)
    (h : ((whileR (fun st => st.key = P.features ∧ st.wire = 2) (fun st => Res.of (featBody b st)) n s1).bind fun st =>
      (whileR (fun st => st.key = P.keys ∧ st.wire = 2) (fun st => Res.of (keyBody b st)) n st).bind fun st =>
      (whileR (fun st => st.key = P.values ∧ (aw = true ∨ st.wire = 2)) (fun st => Res.of (valBody P nc b st)) n st).bind fun st =>
      (Res.of (passExtent P b st)).bind fun st => Res.of (passVersion P b st)) = .ok s') : nm <+: s'.names := by
  obtain ⟨s2, h2, h⟩ := Res.bind_eq_ok h
  obtain ⟨s3, h3, h⟩ := Res.bind_eq_ok h
  obtain ⟨s4, h4, h⟩ := Res.bind_eq_ok h
  obtain ⟨s5, h5, h⟩ := Res.bind_eq_ok h
  have k2 : nm <+: s2.names := by
    refine whileR_inv _ _ (fun s => nm <+: s.names) ?_ _ _ _ k1 h2
    intro u v hu hv
    have := Res.of_eq_ok hv
    unfold featBody at this
    obtain ⟨⟨x, q⟩, _, h⟩ := Option.bind_eq_some_iff.1 this
    rw [nextTag_names h]; exact hu
  have k3 : nm <+: s3.names := by
    refine whileR_inv _ _ (fun s => nm <+: s.names) ?_ _ _ _ k2 h3
    intro u v hu hv
    have := Res.of_eq_ok hv
    unfold keyBody at this
    obtain ⟨⟨x, q⟩, _, h⟩ := Option.bind_eq_some_iff.1 this
    rw [nextTag_names h]; exact hu
  have k4 : nm <+: s4.names := by
    refine whileR_inv _ _ (fun s => nm <+: s.names) ?_ _ _ _ k3 h4
    intro u v hu hv
    have := Res.of_eq_ok hv
    unfold valBody at this
    obtain ⟨⟨x, q⟩, _, h⟩ := Option.bind_eq_some_iff.1 this
    obtain ⟨⟨y, z, q⟩, _, h⟩ := Option.bind_eq_some_iff.1 h
    obtain ⟨⟨y, q⟩, _, h⟩ := Option.bind_eq_some_iff.1 h
    rw [nextTag_names h]; exact hu
  have k5 : nm <+: s5.names := by
    have := Res.of_eq_ok h5
    unfold passExtent at this
    split at this
    · obtain ⟨⟨x, q⟩, _, h⟩ := Option.bind_eq_some_iff.1 this
      rw [nextTag_names h]; exact k4
    · simp only [Option.some.injEq] at this
      rw [← this]; exact k4
  have := Res.of_eq_ok h
  unfold passVersion at this
  split at this
  · obtain ⟨⟨x, q⟩, _, h⟩ := Option.bind_eq_some_iff.1 this
    rw [nextTag_names h]; exact k5
  · simp only [Option.some.injEq] at this
    rw [← this]; exact k5

/-- A pass of the layer loop only appends names. -/
theorem layerPass_names (P : Proto) (nc : NumCodec) (b : Bytes) (n : Nat) (aw : Bool) (nm : List Bytes) (s s' : LS) (hs : nm <+: s.names)
    (h : layerPass P nc b n aw s = .ok s') : nm <+: s'.names := by
  unfold layerPass at h
  obtain ⟨s1, h1, h⟩ := Res.bind_eq_ok h
  refine passRest_names P nc b n aw nm s1 s' ?_ h
  have := Res.of_eq_ok h1
  unfold passName at this
  split at this
  · obtain ⟨⟨x, q⟩, _, h⟩ := Option.bind_eq_some_iff.1 this
    simp only [Option.map_eq_some_iff] at h
    obtain ⟨s0, e0, rfl⟩ := h
    simp only [nextTag_names e0]
    exact hs.trans (List.prefix_append _ _)
  · simp only [Option.some.injEq] at this
    rw [← this]; exact hs

/-- A broken layer whose name can be read has appended it to `tile.Layers`. -/
theorem panicNames_named (P : Proto) (nc : NumCodec) (hP : P.Good) (b : Bytes) (n : Nat) (hn : 0 < n) (pos : Int) (sz : Nat) (h1 : 1 < sz) (hsz : sz < 9223372036854775808)
    (nm rest : Bytes) (hnm : nm.length < 9223372036854775808)
    (hat : At b pos (tagByte P.layers 2 :: (encVarint sz ++ (encBytes P.name nm ++ rest)))) : [nm] <+: panicNames P nc b n pos := by
  unfold panicNames
  have e1 : ∀ t, tagByte t 2 / 8 = t := by intro t; unfold tagByte; omega
  have e2 : ∀ t, tagByte t 2 % 8 = 2 := by intro t; unfold tagByte; omega
  have a1 := hat.adv1
  have a2 := a1.adv
  rw [encBytes_app] at a2
  have a3 := a2.adv1
  rw [readTag_at hat, Option.bind_some]
  simp only [e1, e2, and_self, if_true]
  rw [readVarint_at a1 hsz, Option.bind_some]
  simp only
  rw [readTag_at a2, Option.map_some, Option.getD_some]
  simp only [e1, e2]
  have hrs := readString_at a3 hnm
  generalize hs0 : (⟨P.name, 2, pos + 1 + ((encVarint sz).length : Int) + 1, ⟨[], 0, 0, [], [], [], pos + 1 + ((encVarint sz).length : Int),
    pos + 1 + ((encVarint sz).length : Int) + sz⟩, []⟩ : LS) = s0
  have q1 : s0.key = P.name := by rw [← hs0]
  have q2 : s0.wire = 2 := by rw [← hs0]
  have q3 : s0.pos = pos + 1 + ((encVarint sz).length : Int) + 1 := by rw [← hs0]
  have q4 : s0.names = [] := by rw [← hs0]
  rw [← q3] at hrs
  obtain ⟨n', hn'⟩ : ∃ m, n = m + 1 := ⟨n - 1, by omega⟩
  have hbase : [nm] <+: s0.names ++ (if s0.key = P.name ∧ s0.wire = 2 then ((readString b s0.pos).map (·.1)).toList else []) := by
    rw [if_pos ⟨q1, q2⟩, hrs, q4]; exact List.prefix_rfl
  have hcond : decide (s0.pos < pos + 1 + ((encVarint sz).length : Int) + sz) = true := by
    rw [q3]; simp only [decide_eq_true_eq]; omega
  have hw : ∀ m, (whileK (fun st : LS => decide (st.pos < pos + 1 + ((encVarint sz).length : Int) + sz)) (layerPass P nc b n false) (m + 1) s0) =
      match layerPass P nc b n false s0 with
      | .ok s' => whileK (fun st : LS => decide (st.pos < pos + 1 + ((encVarint sz).length : Int) + sz)) (layerPass P nc b n false) m s'
      | .panic => (s0, .panicked)
      | .hang => (s0, .hang) := by
    intro m
    rw [whileK, if_pos hcond]
    cases layerPass P nc b n false s0 <;> rfl
  have hgoal : ∀ m, [nm] <+: (whileK (fun st : LS => decide (st.pos < pos + 1 + ((encVarint sz).length : Int) + sz)) (layerPass P nc b n false) (m + 1) s0).1.names ++
      (if (whileK (fun st : LS => decide (st.pos < pos + 1 + ((encVarint sz).length : Int) + sz)) (layerPass P nc b n false) (m + 1) s0).1.key = P.name ∧
        (whileK (fun st : LS => decide (st.pos < pos + 1 + ((encVarint sz).length : Int) + sz)) (layerPass P nc b n false) (m + 1) s0).1.wire = 2 then
        ((readString b (whileK (fun st : LS => decide (st.pos < pos + 1 + ((encVarint sz).length : Int) + sz)) (layerPass P nc b n false) (m + 1) s0).1.pos).map (·.1)).toList else []) := by
    intro m
    rw [hw]
    cases hp : layerPass P nc b n false s0 with
    | panic => exact hbase
    | hang => exact hbase
    | ok s' =>
      simp only
      have hk : [nm] <+: s'.names := by
        unfold layerPass passName at hp
        rw [if_pos ⟨q1, q2⟩, hrs, Option.bind_some] at hp
        simp only at hp
        obtain ⟨s1, g1, g2⟩ := Res.bind_eq_ok hp
        refine passRest_names P nc b n false [nm] s1 s' ?_ g2
        have := Res.of_eq_ok g1
        simp only [Option.map_eq_some_iff] at this
        obtain ⟨z, hz, rfl⟩ := this
        simp [nextTag_names hz, q4]
      exact (whileK_inv _ _ (fun s => [nm] <+: s.names) (fun u v hu hv => layerPass_names P nc b n false [nm] u v hu hv) m s' hk).trans (List.prefix_append _ _)
  have := hgoal n'
  rw [← hn'] at this
  exact this

/-- C83: the bytes are layers `t` of any writer, the last of which ends with its version, and a layer message that begins with the
name `nm`, with anything behind it. If `NewTile` fails in this last message, `tile.Layers` nevertheless lists `nm`, after the names
of the complete layers, though no layer of the tile belongs to it. -/
theorem C83_newTile_lists_name_of_broken_layer (P : Proto) (hP : P = mapboxProto ∨ P = lkProto) (nc : NumCodec) (hnc : nc.Law) (t : List (List LField))
    (ht : ∀ m ∈ t, MsgOk P nc m) (hc : ∀ m ∈ t.dropLast, Closed m) (hv : ∀ m, t.getLast? = some m → ∃ v, m.getLast? = some (.version v))
    (sz : Nat) (h1 : 1 < sz) (hsz : sz < 9223372036854775808) (nm rest : Bytes) (hnm : nm.length < 9223372036854775808)
    (b : Bytes) (hb : b = tileBytes P nc t ++ (tagByte P.layers 2 :: (encVarint sz ++ (encBytes P.name nm ++ rest))))
    (n : Nat) (hn : b.length + 2 < n) (T : TS) (h : newTileCall P nc b n = some (T, true)) (hlen : T.layers.length = t.length) :
    List.Forall₂ (LayerIs P n b) t T.layers ∧ t.flatMap (List.filterMap LField.name?) ++ [nm] <+: T.names := by
  have hg : P.Good ∧ LayerTagLate P := by
    rcases hP with rfl | rfl
    · exact ⟨mapbox_good, mapbox_late⟩
    · exact ⟨lk_good, lk_late⟩
  subst hb
  obtain ⟨st, hat, hfa, hnmeq, e⟩ := newTile_prefix_fields P nc hg.1 hg.2 hnc t ht hc hv _ n hn
  generalize hb : tileBytes P nc t ++ (tagByte P.layers 2 :: (encVarint sz ++ (encBytes P.name nm ++ rest))) = b at *
  have htl : t.length + 2 < n := by
    have : t.length ≤ (tileBytes P nc t).length := flatMap_length_ge _ _ (fun x _ => by simp [encBytes])
    have h2 := congrArg List.length hb
    rw [List.length_append] at h2
    omega
  obtain ⟨k1, k2, k3⟩ := newTileCall_state h
  obtain ⟨k3, k4⟩ := k3 rfl
  obtain ⟨m, hm⟩ : ∃ m, n - t.length = m + 1 := ⟨n - t.length - 1, by omega⟩
  have hpos := hat.pos
  simp only [List.length_cons] at hpos
  have hcond : decide (st.pos < b.length) = true := by
    simp only [decide_eq_true_eq]; omega
  rw [hm, whileK, if_pos hcond] at e
  cases hp : tileBody P nc b n st with
  | hang => rw [hp] at e; rw [e] at k3; simp at k3
  | panic =>
    rw [hp] at e
    rw [e] at k1 k4
    refine ⟨by rw [← k1]; exact hfa, ?_⟩
    rw [k4, hnmeq]
    exact (List.prefix_append_right_inj _).2 (panicNames_named P nc hg.1 b n (by omega) st.pos sz h1 hsz nm rest hnm hat)
  | ok s' =>
    exfalso
    rw [hp] at e
    simp only at e
    have hl : st.layers.length < s'.layers.length := by
      have e1 : tagByte P.layers 2 / 8 = P.layers := by unfold tagByte; omega
      have e2 : tagByte P.layers 2 % 8 = 2 := by unfold tagByte; omega
      unfold tileBody at hp
      rw [readTag_at hat, Res.of_some, Res.bind_ok] at hp
      simp only [e1, e2] at hp
      rw [if_pos ⟨trivial, trivial⟩, readVarint_at hat.adv1 hsz, Res.of_some, Res.bind_ok] at hp
      simp only at hp
      rw [if_pos (by omega)] at hp
      obtain ⟨⟨L, ns⟩, _, hp⟩ := Res.bind_eq_ok hp
      simp only [Res.ok.injEq] at hp
      rw [← hp]; simp
    have hinv := whileK_inv (fun st : TS => decide (st.pos < b.length)) (tileBody P nc b n) (fun s => s'.layers <+: s.layers ∧ s'.names <+: s.names)
      (fun u v => tileBody_appends P nc b n s'.layers s'.names u v) m s' ⟨List.prefix_rfl, List.prefix_rfl⟩
    rw [← e, k1] at hinv
    have := hinv.1.length_le
    have := hfa.length_eq
    omega

/-- The layer `b` is cut behind its name: `NewTile` returns an error, the layer `a`, and both names. -/
theorem C83_broken_name_example :
    ((newTileCall mapboxProto NumCodec.standard (tileBytes mapboxProto NumCodec.standard [[.name [97], .version 1]] ++
        (tagByte mapboxProto.layers 2 :: (encVarint 9 ++ (encBytes mapboxProto.name [98] ++ [18])))) 100).map
      (fun r => (r.1.layers.map (fun l => l.name), r.1.names, r.2))) = some ([[97]], [[97], [98]], true) := by
  decide +kernel

end Verif.Mvt
