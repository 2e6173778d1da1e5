import Verif.Proof.MvtHist
import Mathlib.Data.List.Nodup

/-!
# C29–C30: key/value tables, and writing and reading layers
-/
namespace Verif.Mvt
open Verif.Go Verif.Pbf

/-! ## C29 -/

/-- A layer just made by `NewLayer` or `NewLayerConfig`. -/
def Fresh (l : LayerWrite) : Prop :=
  (∃ name, l = LayerWrite.new name) ∨ ∃ name extent version, l = LayerWrite.newConfig name extent version

theorem Fresh.ok {l : LayerWrite} (h : Fresh l) : DictOk l := by
  rcases h with ⟨n, rfl⟩ | ⟨n, e, v, rfl⟩
  · exact new_ok n
  · exact newConfig_ok n e v

theorem Fresh.keys {l : LayerWrite} (h : Fresh l) : l.keys = [] := by
  rcases h with ⟨n, rfl⟩ | ⟨n, e, v, rfl⟩ <;> rfl

theorem Fresh.values {l : LayerWrite} (h : Fresh l) : l.values = [] := by
  rcases h with ⟨n, rfl⟩ | ⟨n, e, v, rfl⟩ <;> rfl

theorem Fresh.features {l : LayerWrite} (h : Fresh l) : l.features = [] := by
  rcases h with ⟨n, rfl⟩ | ⟨n, e, v, rfl⟩ <;> rfl

/-- C29: take any history of `GetTags`/`AddFeature`/`AddFeatureRaw` calls on a new layer and any call `c` in it. The tags that
call got are pairs of indices, one pair per property, that in the final tables still lead to the property's key and to a
value Go considers equal to (or that is) the property's value. -/
theorem C29_tags_resolve (P : Proto) (l0 : LayerWrite) (h0 : Fresh l0) (before after : List Call) (c : Call)
    (l1 l2 l' : LayerWrite) (ts : List Nat)
    (h1 : runCalls P l0 before = some l1)
    (h2 : getTags l1 c.props = some (l2, ts))
    (h3 : runCalls P l0 (before ++ c :: after) = some l')
    (h32 : l'.keys.length ≤ 4294967296 ∧ l'.values.length ≤ 4294967296) :
    ts.length = 2 * c.props.length ∧ ∀ i k v, c.props[i]? = some (k, v) →
      ∃ ti tj w, ts[2 * i]? = some ti ∧ ts[2 * i + 1]? = some tj ∧ l'.keys[ti]? = some k ∧ l'.values[tj]? = some w ∧
        (w = v ∨ goEq w v = true) := by
  rw [runCalls_append, h1, Option.bind_some, runCalls] at h3
  cases hc : c.run P l1 with
  | none => simp [hc] at h3
  | some l3 =>
    simp only [hc, Option.bind_some] at h3
    have hg := runCalls_grows P after l3 l' h3
    obtain ⟨l4, ts4, e4, hk, hv, _, _⟩ := Call.run_getTags P c l1 l3 hc
    rw [h2] at e4
    simp only [Option.some.injEq, Prod.mk.injEq] at e4
    obtain ⟨rfl, rfl⟩ := e4
    have hg2 : Grows l2 l' := ⟨by rw [← hk]; exact hg.1, by rw [← hv]; exact hg.2⟩
    have f2 : Fits32 l2 := hg2.fits h32
    have x1 := getTags_ext _ _ _ _ h2
    have f1 : Fits32 l1 := Fits32.anti x1 f2
    have d1 := runCalls_ok P before _ l1 h0.ok h1 f1
    exact ((getTags_ok _ _ _ _ d1 h2 f2).2.grow hg2).at

/-- C29: what the tables give back for a value is that value of the same type; only a float zero may come back with the
other sign. -/
theorem C29_shared_value_same (w v : GoVal) (h : w = v ∨ goEq w v = true) :
    w = v ∨ (∃ a b, w = .f32 a ∧ v = .f32 b ∧ a % 2 ^ 31 = 0 ∧ b % 2 ^ 31 = 0) ∨
      (∃ a b, w = .f64 a ∧ v = .f64 b ∧ a % 2 ^ 63 = 0 ∧ b % 2 ^ 63 = 0) := by
  rcases h with h | h
  · exact Or.inl h
  cases w <;> cases v <;> simp only [goEq, Bool.false_eq_true] at h
  · left; simpa using h
  · left; simpa using h
  · rename_i a b
    simp only [floatEq, decide_eq_true_eq] at h
    obtain ⟨_, _, h | ⟨h1, h2⟩⟩ := h
    · left; rw [h]
    · right; left; exact ⟨a, b, rfl, rfl, h1, h2⟩
  · rename_i a b
    simp only [floatEq, decide_eq_true_eq] at h
    obtain ⟨_, _, h | ⟨h1, h2⟩⟩ := h
    · left; rw [h]
    · right; right; exact ⟨a, b, rfl, rfl, h1, h2⟩
  · left; simpa using h
  · left; simpa using h
  · left; simpa using h

/-- C29: after any history no key has two entries, no two values Go considers equal have separate entries, and every entry
was put there by a property of some call. -/
theorem C29_tables_shared (P : Proto) (l0 : LayerWrite) (h0 : Fresh l0) (cs : List Call) (l' : LayerWrite)
    (h : runCalls P l0 cs = some l')
    (h32 : l'.keys.length ≤ 4294967296 ∧ l'.values.length ≤ 4294967296) :
    (∀ (i j : Nat) (k : Bytes), l'.keys[i]? = some k → l'.keys[j]? = some k → i = j) ∧
    (∀ (i j : Nat) (v w : GoVal), i < j → l'.values[i]? = some v → l'.values[j]? = some w → goEq v w = false) ∧
    (∀ k ∈ l'.keys, ∃ c ∈ cs, ∃ v, (k, v) ∈ c.props) ∧ (∀ v ∈ l'.values, ∃ c ∈ cs, ∃ k, (k, v) ∈ c.props) := by
  have d := runCalls_ok P cs _ l' h0.ok h h32
  have m := runCalls_mem P cs _ l' h
  refine ⟨?_, ?_, ?_, ?_⟩
  · intro i j k hi hj
    obtain ⟨hi', e1⟩ := List.getElem?_eq_some_iff.mp hi
    obtain ⟨hj', e2⟩ := List.getElem?_eq_some_iff.mp hj
    exact (List.Nodup.getElem_inj_iff d.nodup).mp (e1.trans e2.symm)
  · intro i j v w hij hi hj
    obtain ⟨hi', e1⟩ := List.getElem?_eq_some_iff.mp hi
    obtain ⟨hj', e2⟩ := List.getElem?_eq_some_iff.mp hj
    have := List.pairwise_iff_getElem.mp d.distinct i j hi' hj' hij
    rwa [e1, e2] at this
  · intro k hk
    rcases m.1 k hk with h | h
    · simp [h0.keys] at h
    · exact h
  · intro k hk
    rcases m.2 k hk with h | h
    · simp [h0.values] at h
    · exact h

/-- C29: `GetTags` panics exactly when a property value cannot be a map key (a slice, map or function). -/
theorem C29_panics_iff_unhashable (l : LayerWrite) (props : List (Bytes × GoVal)) :
    getTags l props = none ↔ ∃ k, (k, GoVal.unhashable) ∈ props := getTags_none props l

/-- C29, concrete: two features sharing a key and a value; 0.0 and -0.0 share an entry, NaN gets a new entry every time. -/
example : (runCalls mapboxProto (LayerWrite.newConfig [97] 0 0)
    [.addRaw 1 1 [9, 2, 2] [([107], .int 0 5), ([109], .str [120])], .tags [([109], .int 0 5), ([110], .f64 0)],
     .tags [([107], .f64 9223372036854775808), ([107], .f64 9221120237041090561), ([107], .f64 9221120237041090561)]]).map
      (fun l => (l.keys, l.values)) =
    some ([[107], [109], [110]], [.int 0 5, .str [120], .f64 0, .f64 9221120237041090561, .f64 9221120237041090561]) := by
  decide +kernel

/-! ## C30 -/

/-- A layer to be written: how it is made (`NewLayer` if `plain`, with its name only, otherwise `NewLayerConfig` with all three
arguments), and the calls made on it. -/
structure LayerIn where
  name : Bytes
  extent : Nat
  version : Nat
  calls : List Call
  plain : Bool

/-- The layer before the calls. -/
def LayerIn.start (w : LayerIn) : LayerWrite :=
  if w.plain then LayerWrite.new w.name else LayerWrite.newConfig w.name w.extent w.version

theorem LayerIn.fresh (w : LayerIn) : Fresh w.start := by
  unfold LayerIn.start
  split
  · exact Or.inl ⟨_, rfl⟩
  · exact Or.inr ⟨_, _, _, rfl⟩

theorem LayerIn.start_name (w : LayerIn) : w.start.name = w.name := by
  unfold LayerIn.start
  split <;> rfl

/-- The extent a reader should see: 4096 unless another one was asked for. -/
def LayerIn.wantExtent (w : LayerIn) : Nat := if w.plain ∨ w.extent = 0 then 4096 else w.extent

/-- The version a reader should see: the one asked for, `NewLayerConfig`'s default 2, or none (0) with `NewLayer`. -/
def LayerIn.wantVersion (w : LayerIn) : Nat := if w.plain then 0 else if w.version = 0 then 2 else w.version

/-- `l` is the layer after the calls of `w`; all sizes are those a Go program can have (lengths fit an int, at most 2^32 table
entries). -/
structure Written (P : Proto) (nc : NumCodec) (w : LayerIn) (l : LayerWrite) : Prop where
  run : runCalls P w.start w.calls = some l
  ok : ∀ c ∈ w.calls, c.Ok
  keys32 : l.keys.length ≤ 4294967296
  values32 : l.values.length ≤ 4294967296
  body : (layerBody P nc l).length < 9223372036854775808
  extent : w.extent < 9223372036854775808
  version : w.version < 9223372036854775808

/-- `f`, read from `b`, is the feature of call `c`. -/
structure FeatureOf (b : Bytes) (c : Call) (f : Feature) : Prop where
  id : f.id = c.expId
  type : f.geomInt = c.expType
  props : List.Forall₂ (fun (p : Bytes × GoVal) (x : Bytes × Val) => x.1 = p.1 ∧ ReadAs p.2 x.2) c.props f.props
  geometry : c.expGeom ≠ [] → loadRaw b f = some c.expGeom
  /-- Without a geometry, what stands at the start of the tile is read as one. -/
  bare : c.bare = true → loadRaw b f = (readPacked b 0).map (·.1)

/-- The layer `L`, read from `b`, is `w`: name, extent, version; the keys are those used, once each; the values are those
used; and there is one feature per call that adds one, in order. -/
structure LayerOf (P : Proto) (b : Bytes) (late : Bool) (n : Nat) (w : LayerIn) (L : Layer) : Prop where
  name : L.name = w.name
  extent : L.extent = w.wantExtent
  version : L.version = w.wantVersion
  keysOnce : L.keys.Nodup
  keys : ∀ k, k ∈ L.keys ↔ ∃ c ∈ w.calls, ∃ v, (k, v) ∈ c.props
  values : ∀ x ∈ L.values, ∃ c ∈ w.calls, ∃ k v, (k, v) ∈ c.props ∧ x = stored v
  features : List.Forall₂ (fun c p => ∃ f, readFeature P b late n L p = .ok f ∧ f.extent = L.extent ∧ FeatureOf b c f)
    (w.calls.filter (·.isAdd)) L.features

theorem Written.layerOk {P : Proto} {nc : NumCodec} {w : LayerIn} {l : LayerWrite} (h : Written P nc w l) :
    LayerOk P nc l ∧ Fits32 l ∧ DictOk l := by
  have h32 : Fits32 l := ⟨h.keys32, h.values32⟩
  obtain ⟨h1, h2, h3, _⟩ := runCalls_features P w.calls _ l w.fresh.ok h.run h32
  refine ⟨⟨h.body, ?_, ?_, ?_⟩, h32, runCalls_ok P w.calls _ l w.fresh.ok h.run h32⟩
  · rw [h2]; have := h.extent; unfold LayerIn.start; split
    · simp [LayerWrite.new]
    · simp only [LayerWrite.newConfig]; split <;> omega
  · rw [h3]; have := h.version; unfold LayerIn.start; split
    · simp [LayerWrite.new]
    · simp only [LayerWrite.newConfig]; split <;> omega
  · intro v hv
    rcases (runCalls_mem P w.calls _ l h.run).2 v hv with h0 | ⟨c, hc, k, hk⟩
    · simp [w.fresh.values] at h0
    · exact (h.ok c hc).2.2.2 k v hk

/-- A layer read back at its place in a buffer has the features of its calls. -/
theorem Written.layerOf {P : Proto} {nc : NumCodec} (hP : P.Good) {w : LayerIn} {l : LayerWrite} (h : Written P nc w l) (b : Bytes)
    (late : Bool) (n : Nat) (hn : 5 ≤ n) (hlate : late = true ∨ ∀ c ∈ w.calls, c.isAdd = true → 8 ≤ c.expGeom.length)
    (ps : List Int) (p e : Int) (hps : List.Forall₂ (FeatAt b) ps l.features) : LayerOf P b late n w (readBack l ps p e) := by
  obtain ⟨hok, h32, hd⟩ := h.layerOk
  obtain ⟨h1, h2, h3, fs, hfs, hrel⟩ := runCalls_features P w.calls _ l w.fresh.ok h.run h32
  have hm := runCalls_mem P w.calls _ l h.run
  have hfs' : l.features = fs.map (encFeature P) := by rw [hfs]; simp [w.fresh.features]
  refine ⟨h1.trans w.start_name, ?_, ?_, hd.nodup, ?_, ?_, ?_⟩
  · simp only [readBack, h2, LayerIn.start, LayerIn.wantExtent]
    cases w.plain
    · simp only [LayerWrite.newConfig, Bool.false_eq_true, if_false, false_or]
      split
      · rfl
      · rename_i hx; simp [hx]
    · simp [LayerWrite.new]
  · simp only [readBack, h3, LayerIn.start, LayerIn.wantVersion]
    cases w.plain
    · simp [LayerWrite.newConfig]
    · simp [LayerWrite.new]
  · intro k
    constructor
    · intro hk
      rcases hm.1 k hk with h0 | h0
      · simp [w.fresh.keys] at h0
      · exact h0
    · rintro ⟨c, hc, v, hv⟩
      obtain ⟨as, bs, hab⟩ := List.append_of_mem hc
      have hrun := h.run
      rw [hab, runCalls_append] at hrun
      cases ha : runCalls P w.start as with
      | none => rw [ha] at hrun; simp at hrun
      | some la =>
        rw [ha, Option.bind_some, runCalls] at hrun
        cases hb : c.run P la with
        | none => simp [hb] at hrun
        | some lb =>
          obtain ⟨l4, ts4, e4, _⟩ := Call.run_getTags P c la lb hb
          have := C29_tags_resolve P w.start w.fresh as bs c la l4 l ts4 ha e4 (by rw [← hab]; exact h.run) h32
          obtain ⟨i, hi⟩ := List.getElem?_of_mem hv
          obtain ⟨ti, _, _, _, _, hti, _⟩ := this.2 i k v hi
          exact List.mem_of_getElem? hti
  · intro x hx
    simp only [readBack, List.mem_map] at hx
    obtain ⟨v, hv, rfl⟩ := hx
    rcases hm.2 v hv with h0 | ⟨c, hc, k, hk⟩
    · simp [w.fresh.values] at h0
    · exact ⟨c, hc, k, v, hk, rfl⟩
  · have hsub : ∀ f ∈ l.features, Fits f := by
      intro f hf
      have h1 := flatMap_length_mem (encBytes P.features) l.features f hf
      have h2 := encBytes_length P.features f
      have h3 := layerBody_length P nc l
      have h4 := h.body
      unfold Fits; omega
    rw [hfs'] at hps hsub
    have hcs : ∀ c ∈ w.calls.filter (·.isAdd), c ∈ w.calls ∧ c.isAdd = true := by
      intro c hc; simpa using hc
    show List.Forall₂ (fun c q => ∃ f, readFeature P b late n (readBack l ps p e) q = .ok f ∧ f.extent = (readBack l ps p e).extent ∧
      FeatureOf b c f) (w.calls.filter (·.isAdd)) ps
    have hL : (readBack l ps p e).keys = l.keys ∧ (readBack l ps p e).values = l.values.map stored := ⟨rfl, rfl⟩
    generalize readBack l ps p e = L at hL ⊢
    generalize w.calls.filter (·.isAdd) = adds at hrel hcs
    clear hfs hfs'
    induction hrel generalizing ps with
    | nil => cases hps; exact .nil
    | @cons c f adds fs hcf _ ih =>
      cases hps with
      | cons hp hps =>
      refine .cons ?_ (ih _ hps (fun f hf => hsub f (List.mem_cons_of_mem _ hf)) (fun c hc => hcs c (by simp [hc])))
      obtain ⟨ts, ht, rfl⟩ := hcf
      obtain ⟨hc1, hc2⟩ := hcs c (by simp)
      obtain ⟨f, hf, _, _, f1, f2, f3, f4, f5, f6⟩ := callFeature_at P hP b late 0 le_rfl n l L ⟨0, [], 0, 0, 0⟩ rfl hL _ c hc2 (h.ok c hc1)
        ts ht h32 (hsub _ (by simp)) (by rcases hlate with h | h; exact Or.inl h; exact Or.inr (h c hc1 hc2)) hn hp
      refine ⟨f, hf, f3, ?_, ?_, f4, f5, ?_⟩
      · rw [f1]; split
        · rename_i hx; exact hx.1.symm
        · rfl
      · rw [f2]
        split
        · rename_i hx
          cases c with
          | tags _ => simp [Call.isAdd] at hc2
          | addRaw id t g ps =>
            simp only [Call.feature] at hx
            by_cases h0 : t = 0
            · simp [Call.expType, h0]
            · simp [h0] at hx
          | add id t ws ps => simp [Call.feature] at hx
          | addBare id co ps => rfl
        · rfl
      · intro hb
        have : (c.feature ts).geometry = none := by
          cases c with
          | tags _ => simp [Call.isAdd] at hc2
          | addRaw id t g ps =>
            simp only [Call.bare, decide_eq_true_eq] at hb
            simp [Call.feature, hb]
          | add id t ws ps => simp [Call.bare] at hb
          | addBare id co ps => rfl
        unfold loadRaw
        rw [f6 this]

/-- C30: write any layers with this package and concatenate their bytes. `NewTile` then returns one layer per written layer,
in order, with the same name, extent, version, keys and values, and `Feature()` returns for each feature its id, type,
properties and raw geometry (or, when it has none, whatever the start of the tile reads as), in order. Holds for both tag schemes. `late` is the order in which Go
evaluates `Buf.Pos + ReadVarint()`; with the other order the theorem needs geometries of at least 8 words. -/
theorem C30_tile_roundtrip (P : Proto) (hP : P = mapboxProto ∨ P = lkProto) (nc : NumCodec) (hnc : nc.Law) (ws : List LayerIn) (ls : List LayerWrite)
    (hw : List.Forall₂ (Written P nc) ws ls) (late : Bool)
    (hlate : late = true ∨ ∀ w ∈ ws, ∀ c ∈ w.calls, c.isAdd = true → 8 ≤ c.expGeom.length)
    (n : Nat) (hn : (ls.flatMap (flush P nc)).length + 5 < n) :
    ∃ t : TS, newTile P nc (ls.flatMap (flush P nc)) n = .ok t ∧ t.pos = (ls.flatMap (flush P nc)).length ∧
      t.names = (ws.map (·.name)).filter (fun m => m ≠ []) ∧
      List.Forall₂ (LayerOf P (ls.flatMap (flush P nc)) late n) ws t.layers := by
  have hg : P.Good := by rcases hP with rfl | rfl; exact mapbox_good; exact lk_good
  have hlo : ∀ l ∈ ls, LayerOk P nc l := by
    intro l hl
    obtain ⟨i, hi⟩ := List.getElem?_of_mem hl
    obtain ⟨hi', e⟩ := List.getElem?_eq_some_iff.mp hi
    have := hw.get (i := i) (by rw [hw.length_eq]; exact hi') hi'
    simp only [List.get_eq_getElem, e] at this
    exact this.layerOk.1
  obtain ⟨out, hout, hrel⟩ := newTile_at P nc hg hnc ls hlo n (by omega)
  refine ⟨_, hout, rfl, ?_, ?_⟩
  · simp only
    clear hout hrel hlo hn hlate
    induction hw with
    | nil => rfl
    | @cons w l ws ls h _ ih =>
      have hnm : l.name = w.name := (runCalls_features P w.calls _ l w.fresh.ok h.run ⟨h.keys32, h.values32⟩).1.trans w.start_name
      by_cases h0 : w.name = []
      · simp [hnm, h0] at ih ⊢; exact ih
      · have : 0 < w.name.length := List.length_pos_iff.mpr h0
        simp [hnm, h0, this] at ih ⊢; exact ih
  · simp only
    generalize ls.flatMap (flush P nc) = b at hrel hn
    clear hout hlo
    induction hw generalizing out with
    | nil => cases hrel; exact .nil
    | @cons w l ws ls h _ ih =>
      cases hrel with
      | cons h1 hrel =>
      obtain ⟨ps, p, s, rfl, _, hps⟩ := h1
      refine .cons (h.layerOf hg b late n (by omega) ?_ ps _ _ hps) (ih ?_ _ hrel)
      · rcases hlate with h | h
        · exact Or.inl h
        · exact Or.inr (h w (by simp))
      · rcases hlate with h | h
        · exact Or.inl h
        · exact Or.inr (fun w hw => h w (by simp [hw]))

/-- Looking for the last related element from the end. -/
theorem forall₂_last {α β : Type} {R : α → β → Prop} {f : α → Bytes} {g : β → Bytes} (hfg : ∀ a b, R a b → g b = f a)
    {as : List α} {bs : List β} (h : List.Forall₂ R as bs) (m : Bytes) :
    (m ∉ as.map f → bs.reverse.find? (fun b => g b = m) = none) ∧
    ∀ pre a post, as = pre ++ a :: post → f a = m → m ∉ post.map f → ∃ b, bs.reverse.find? (fun b => g b = m) = some b ∧ R a b := by
  induction h with
  | nil => exact ⟨fun _ => rfl, fun pre a post e => by simp at e⟩
  | @cons a b as bs hab _ ih =>
    rw [List.reverse_cons, List.find?_append]
    refine ⟨fun hm => ?_, fun pre a' post e h1 h2 => ?_⟩
    · simp only [List.map_cons, List.mem_cons, not_or] at hm
      rw [ih.1 hm.2]
      have : g b ≠ m := by rw [hfg a b hab]; exact fun h => hm.1 h.symm
      simp [this]
    · cases pre with
      | nil =>
        simp only [List.nil_append, List.cons.injEq] at e
        obtain ⟨rfl, rfl⟩ := e
        rw [ih.1 h2]
        have : g b = m := by rw [hfg a b hab]; exact h1
        exact ⟨b, by simp [this], hab⟩
      | cons x pre =>
        simp only [List.cons_append, List.cons.injEq] at e
        obtain ⟨b', e1, e2⟩ := ih.2 pre a' post e.2 h1 h2
        exact ⟨b', by rw [e1]; rfl, e2⟩

/-- C30: `tile.LayerMap[name]` is, for a name some written layer has, the last written layer of that name, and absent for every other
name. -/
theorem C30_layerMap (P : Proto) (hP : P = mapboxProto ∨ P = lkProto) (nc : NumCodec) (hnc : nc.Law) (ws : List LayerIn) (ls : List LayerWrite)
    (hw : List.Forall₂ (Written P nc) ws ls) (late : Bool)
    (hlate : late = true ∨ ∀ w ∈ ws, ∀ c ∈ w.calls, c.isAdd = true → 8 ≤ c.expGeom.length)
    (n : Nat) (hn : (ls.flatMap (flush P nc)).length + 5 < n) :
    ∃ t : TS, newTile P nc (ls.flatMap (flush P nc)) n = .ok t ∧
      (∀ m, m ∉ ws.map (·.name) → t.layerMap m = none) ∧
      ∀ pre w post, ws = pre ++ w :: post → w.name ∉ post.map (·.name) →
        ∃ L, t.layerMap w.name = some L ∧ LayerOf P (ls.flatMap (flush P nc)) late n w L := by
  obtain ⟨t, h1, _, _, h2⟩ := C30_tile_roundtrip P hP nc hnc ws ls hw late hlate n hn
  refine ⟨t, h1, fun m hm => ?_, fun pre w post e hp => ?_⟩
  · exact (forall₂_last (f := fun w : LayerIn => w.name) (g := fun l : Layer => l.name) (fun a b h => h.1) h2 m).1 hm
  · exact (forall₂_last (f := fun w : LayerIn => w.name) (g := fun l : Layer => l.name) (fun a b h => h.1) h2 w.name).2 pre w post e rfl hp

/-- C30, one layer. -/
theorem C30_layer_roundtrip (P : Proto) (hP : P = mapboxProto ∨ P = lkProto) (nc : NumCodec) (hnc : nc.Law) (w : LayerIn) (l : LayerWrite)
    (hw : Written P nc w l) (late : Bool) (hlate : late = true ∨ ∀ c ∈ w.calls, c.isAdd = true → 8 ≤ c.expGeom.length)
    (n : Nat) (hn : (flush P nc l).length + 5 < n) :
    ∃ (t : TS) (L : Layer), newTile P nc (flush P nc l) n = .ok t ∧ t.layers = [L] ∧ LayerOf P (flush P nc l) late n w L := by
  have := C30_tile_roundtrip P hP nc hnc [w] [l] (.cons hw .nil) late (by simpa using hlate) n (by simpa using hn)
  simp only [List.flatMap_cons, List.flatMap_nil, List.append_nil] at this
  obtain ⟨t, h1, _, _, h2⟩ := this
  cases ht : t.layers with
  | nil => rw [ht] at h2; cases h2
  | cons L Ls =>
    rw [ht] at h2
    cases h2 with
    | cons h2 h3 => cases h3; exact ⟨t, L, h1, ht, h2⟩

/-- C30, the hypotheses are met: a layer with five features, three of them without geometry, made either way. -/
example (plain : Bool) : ∃ l, Written mapboxProto NumCodec.standard ⟨[97], 0, 0,
    [.addRaw 7 1 [9, 2, 2] [([107], .int 0 5), ([109], .str [120])], .add (.int (-1)) 2 [9, 4, 4, 18, 0, 16, 16, 0] [([107], .bool true)],
     .addRaw 0 0 [] [], .addBare (.int 3) true [([107], .bool true)], .addBare .none false []], plain⟩ l := by
  cases plain
  all_goals
  refine ⟨_, rfl, ?_, by decide, by decide, ?_, by decide, by decide⟩
  · intro c hc
    simp at hc
    rcases hc with rfl | rfl | rfl | rfl | rfl
    · refine ⟨by unfold IsI64; omega, by decide, by decide, ?_⟩
      intro k v h; simp [Call.props] at h; rcases h with ⟨_, rfl⟩ | ⟨_, rfl⟩ <;> simp [ValOk, IsI64]
    · refine ⟨by unfold IsI64; omega, by decide, by decide, ?_⟩
      intro k v h; simp [Call.props] at h; obtain ⟨_, rfl⟩ := h; simp [ValOk]
    · refine ⟨by unfold IsI64; omega, by decide, by decide, ?_⟩
      intro k v h; simp [Call.props] at h
    · refine ⟨by unfold IsI64; omega, by decide, by decide, ?_⟩
      intro k v h; simp [Call.props] at h; obtain ⟨_, rfl⟩ := h; simp [ValOk]
    · refine ⟨trivial, by decide, by decide, ?_⟩
      intro k v h; simp [Call.props] at h
  · exact lt_of_le_of_lt (b := 100) (by decide +kernel) (by norm_num)

/-- C30, an example of a feature without geometry: `AddFeatureRaw` with an empty geometry writes no geometry field; the reader then has
`GeometryPos = 0` and reads the start of the tile as a geometry. Here the tile is a single layer and the words come from
its own header bytes. -/
theorem C30_no_geometry_reads_tile_start :
    let l := (runCalls mapboxProto (LayerWrite.newConfig [97] 0 0) [.addRaw 1 1 [] [([107], .str [120, 120, 120, 120, 120, 120, 120, 120])]])
    let b := flush mapboxProto NumCodec.standard (l.getD (LayerWrite.new []))
    let L : Layer := ⟨[97], 4096, 2, [[107]], [.str [120, 120, 120, 120, 120, 120, 120, 120]], [6], 2, 35⟩
    let f : Feature := ⟨1, [([107], .str [120, 120, 120, 120, 120, 120, 120, 120])], 0, 1, 4096⟩
    l.isSome = true ∧ newTile mapboxProto NumCodec.standard b 100 = .ok ⟨35, [L], [[97]]⟩ ∧
    readFeature mapboxProto b true 100 L 6 = .ok f ∧
    loadRaw b f = some [33, 10, 1, 97, 18, 8, 8, 1, 18, 2, 0, 0, 24, 1, 26, 1, 107, 34, 10, 10, 8, 120, 120, 120, 120, 120] := by
  decide +kernel

end Verif.Mvt
