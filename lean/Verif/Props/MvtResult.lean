import Verif.Proof.MvtResult
import Verif.Props.MvtRead
import Verif.Props.MvtProject

/-!
# C83: what the tile readers return for tiles that end badly
-/
namespace Verif.Mvt
open Verif.Go Verif.Pbf

/-! ## The three calls and the model of the loops -/

/-- C83: `NewTile` returns without error exactly when no panic occurs, and then the tile of `newTile`. -/
theorem C83_newTile_ok (P : Proto) (nc : NumCodec) (b : Bytes) (n : Nat) (t : TS) :
    newTileCall P nc b n = some (t, false) ↔ newTile P nc b n = .ok t := by
  unfold newTileCall newTile
  rw [whileK_whileR]
  generalize whileK (fun st : TS => decide (st.pos < b.length)) (tileBody P nc b n) n ⟨0, [], []⟩ = x
  obtain ⟨s, e⟩ := x
  cases e <;> simp

/-- C83: `NewTile` returns an error exactly when the tile cannot be parsed to the end. -/
theorem C83_newTile_error (P : Proto) (nc : NumCodec) (b : Bytes) (n : Nat) :
    (∃ t, newTileCall P nc b n = some (t, true)) ↔ newTile P nc b n = .panic := by
  unfold newTileCall newTile
  rw [whileK_whileR]
  generalize whileK (fun st : TS => decide (st.pos < b.length)) (tileBody P nc b n) n ⟨0, [], []⟩ = x
  obtain ⟨s, e⟩ := x
  cases e <;> simp

/-- C83: `ReadTile` returns features without error exactly when the tile can be read to the end and has a feature. -/
theorem C83_readTile_ok (P : Proto) (nc : NumCodec) (b : Bytes) (late : Bool) (n : Nat) (os : List OutFeature) :
    readTileCall P nc b late n = some (os, false) ↔ readTile P nc b late true 0 n = .ok os ∧ os ≠ [] := by
  unfold readTileCall readTile
  rw [whileK_whileR]
  generalize whileK (fun st : BS => decide (st.pos < b.length)) (bulkBody P nc b late true 0 n) n ⟨0, []⟩ = x
  obtain ⟨s, e⟩ := x
  cases e
  · simp only [Option.some.injEq, Prod.mk.injEq, decide_eq_false_iff_not, Res.bind_ok, Res.ok.injEq]
    constructor
    · rintro ⟨rfl, h⟩; exact ⟨rfl, h⟩
    · rintro ⟨rfl, h⟩; exact ⟨rfl, h⟩
  · simp [Res.bind]
  · simp [Res.bind]

/-- C83: `ReadTile` returns an error exactly when the tile cannot be read to the end, or has no feature. -/
theorem C83_readTile_error (P : Proto) (nc : NumCodec) (b : Bytes) (late : Bool) (n : Nat) :
    (∃ os, readTileCall P nc b late n = some (os, true)) ↔
      readTile P nc b late true 0 n = .panic ∨ readTile P nc b late true 0 n = .ok [] := by
  unfold readTileCall readTile
  rw [whileK_whileR]
  generalize whileK (fun st : BS => decide (st.pos < b.length)) (bulkBody P nc b late true 0 n) n ⟨0, []⟩ = x
  obtain ⟨s, e⟩ := x
  cases e
  · simp [Res.bind_ok]
  · simp [Res.bind]
  · simp [Res.bind]

/-- What `NewTile` returns is the state of its loop, and after a panic the names that the broken layer has given. -/
theorem newTileCall_state {P : Proto} {nc : NumCodec} {b : Bytes} {n : Nat} {t : TS} {err : Bool} (h : newTileCall P nc b n = some (t, err)) :
    (whileK (fun st : TS => decide (st.pos < b.length)) (tileBody P nc b n) n ⟨0, [], []⟩).1.layers = t.layers ∧
    (whileK (fun st : TS => decide (st.pos < b.length)) (tileBody P nc b n) n ⟨0, [], []⟩).1.names <+: t.names ∧
    (err = true → (whileK (fun st : TS => decide (st.pos < b.length)) (tileBody P nc b n) n ⟨0, [], []⟩).2 = .panicked ∧
      t.names = (whileK (fun st : TS => decide (st.pos < b.length)) (tileBody P nc b n) n ⟨0, [], []⟩).1.names ++
        panicNames P nc b n (whileK (fun st : TS => decide (st.pos < b.length)) (tileBody P nc b n) n ⟨0, [], []⟩).1.pos) := by
  unfold newTileCall at h
  generalize whileK (fun st : TS => decide (st.pos < b.length)) (tileBody P nc b n) n ⟨0, [], []⟩ = x at h
  obtain ⟨s, q⟩ := x
  cases q <;> simp only [Option.some.injEq, Prod.mk.injEq, reduceCtorEq] at h <;> obtain ⟨rfl, rfl⟩ := h
  · exact ⟨rfl, List.prefix_rfl, by simp⟩
  · exact ⟨rfl, List.prefix_append _ _, fun _ => ⟨rfl, rfl⟩⟩

/-! ## Tiles with a good beginning -/

/-- The layers written by this package at the beginning of a buffer, whatever follows. -/
theorem newTile_prefix (P : Proto) (nc : NumCodec) (hP : P.Good) (hnc : nc.Law) (ls : List LayerWrite) (hl : ∀ l ∈ ls, LayerOk P nc l)
    (tail : Bytes) (n m : Nat) (hn : (ls.flatMap (flush P nc) ++ tail).length + 2 < n) (hm : ls.length ≤ m) :
    ∃ st : TS, List.Forall₂ (fun (l : LayerWrite) (o : Layer) => ∃ ps p s, o = readBack l ps p (p + (layerBody P nc l).length) ∧
        At (ls.flatMap (flush P nc) ++ tail) p (layerBody P nc l ++ s) ∧
        List.Forall₂ (FeatAt (ls.flatMap (flush P nc) ++ tail)) ps l.features) ls st.layers ∧
      st.names = (ls.filter (fun l => l.name.length > 0)).map (·.name) ∧
      whileK (fun st : TS => st.pos < (ls.flatMap (flush P nc) ++ tail).length) (tileBody P nc (ls.flatMap (flush P nc) ++ tail) n) m ⟨0, [], []⟩ =
        whileK (fun st : TS => st.pos < (ls.flatMap (flush P nc) ++ tail).length) (tileBody P nc (ls.flatMap (flush P nc) ++ tail) n)
          (m - ls.length) st := by
  set b := ls.flatMap (flush P nc) ++ tail with hb
  let R : LayerWrite → Layer → Prop := fun l o => ∃ ps p s, o = readBack l ps p (p + (layerBody P nc l).length) ∧
        At b p (layerBody P nc l ++ s) ∧ List.Forall₂ (FeatAt b) ps l.features
  obtain ⟨st, ⟨done, hd, hat, hfa, hnm⟩, e⟩ := whileK_list (fun st : TS => decide (st.pos < b.length)) (tileBody P nc b n)
    (fun xs st => ∃ done, ls = done ++ xs ∧ At b st.pos (xs.flatMap (flush P nc) ++ tail) ∧ List.Forall₂ R done st.layers ∧
      st.names = (done.filter (fun l => l.name.length > 0)).map (·.name))
    (by
      rintro l xs st ⟨done, hd, hat, hfa, hnm⟩
      have hm : l ∈ ls := by rw [hd]; simp
      rw [List.flatMap_cons, flush, List.append_assoc, encBytes_app] at hat
      have hfit := (hl l hm).body
      have hlb : (layerBody P nc l).length < b.length := by
        have h1 := flatMap_length_mem (flush P nc) ls l hm
        have h2 := encBytes_length P.layers (layerBody P nc l)
        unfold flush at h1
        have h3 := lt_of_lt_of_le h2 h1
        rw [hb, List.length_append]
        exact Nat.lt_of_lt_of_le h3 (Nat.le_add_right _ _)
      have hpos := hat.pos
      simp only [List.length_cons] at hpos
      refine ⟨by simp only [decide_eq_true_eq]; omega, ?_⟩
      have h1 := hat.adv1
      obtain ⟨ps, hps, hnl⟩ := newLayer_at P nc hP hnc b l (hl l hm) _ _ h1.adv n (by omega)
      have hsz : ((layerBody P nc l).length : Int) ≠ 0 := by
        have := layerBody_length P nc l
        have h2 : 1 ≤ (encUInt P.version l.version).length := by simp [encUInt]
        omega
      refine ⟨⟨st.pos + 1 + ((encVarint (layerBody P nc l).length).length : Int) + (layerBody P nc l).length,
        st.layers ++ [readBack l ps (st.pos + 1 + ((encVarint (layerBody P nc l).length).length : Int))
          (st.pos + 1 + ((encVarint (layerBody P nc l).length).length : Int) + (layerBody P nc l).length)],
        st.names ++ (if l.name.length > 0 then [l.name] else [])⟩, ?_, done ++ [l], by simp [hd], ?_, ?_, ?_⟩
      · unfold tileBody
        rw [readTag_at hat, Res.of_some, Res.bind_ok]
        have e1 : tagByte P.layers 2 / 8 = P.layers := by unfold tagByte; omega
        have e2 : tagByte P.layers 2 % 8 = 2 := by unfold tagByte; omega
        simp only [e1, e2]
        rw [if_pos ⟨trivial, trivial⟩, readVarint_at h1 hfit, Res.of_some, Res.bind_ok]
        simp only
        rw [if_pos hsz, hnl false, Res.bind_ok]
      · exact At.adv h1.adv
      · exact List.rel_append hfa (.cons ⟨ps, _, _, rfl, h1.adv, hps⟩ .nil)
      · simp only [hnm, List.filter_append, List.map_append]
        congr 1
        by_cases h0 : l.name.length > 0
        · simp [h0]
        · simp [h0])
    ls m ⟨0, [], []⟩ hm ⟨[], rfl, by rw [← hb]; exact At.zero b, .nil, rfl⟩
  have hd' : done = ls := by simpa using hd.symm
  subst hd'
  exact ⟨st, hfa, hnm, e⟩

/-- `NewTile` only appends layers and names. -/
theorem tileBody_appends (P : Proto) (nc : NumCodec) (b : Bytes) (n : Nat) (ly : List Layer) (nm : List Bytes) (s s' : TS)
    (hs : ly <+: s.layers ∧ nm <+: s.names) (h : tileBody P nc b n s = .ok s') : ly <+: s'.layers ∧ nm <+: s'.names := by
  unfold tileBody at h
  obtain ⟨⟨k, w, q⟩, _, h⟩ := Res.bind_eq_ok h
  simp only at h
  split at h
  · obtain ⟨⟨z, r⟩, _, h⟩ := Res.bind_eq_ok h
    simp only at h
    split at h
    · obtain ⟨⟨L', ns'⟩, _, h⟩ := Res.bind_eq_ok h
      simp only [Res.ok.injEq] at h
      rw [← h]
      exact ⟨hs.1.trans (List.prefix_append _ _), hs.2.trans (List.prefix_append _ _)⟩
    · simp only [Res.ok.injEq] at h
      rw [← h]; exact hs
  · simp only [Res.ok.injEq] at h
    rw [← h]; exact hs

theorem flush_length_ge (P : Proto) (nc : NumCodec) (ls : List LayerWrite) : ls.length ≤ (ls.flatMap (flush P nc)).length :=
  flatMap_length_ge _ _ (fun x _ => by simp [flush, encBytes])

theorem written_ok {P : Proto} {nc : NumCodec} {ws : List LayerIn} {ls : List LayerWrite} (hw : List.Forall₂ (Written P nc) ws ls) :
    ∀ l ∈ ls, LayerOk P nc l ∧ ∃ w ∈ ws, Written P nc w l := by
  intro l hl
  obtain ⟨i, hi⟩ := List.getElem?_of_mem hl
  obtain ⟨hi', e⟩ := List.getElem?_eq_some_iff.mp hi
  have := hw.get (i := i) (by rw [hw.length_eq]; exact hi') hi'
  simp only [List.get_eq_getElem, e] at this
  exact ⟨this.layerOk.1, _, List.getElem_mem _, this⟩

theorem forall₂_trans' {α β γ : Type} {R : α → β → Prop} {S : β → γ → Prop} {T : α → γ → Prop} (h : ∀ a b c, R a b → S b c → T a c) :
    ∀ {as : List α} {bs : List β} {cs : List γ}, List.Forall₂ R as bs → List.Forall₂ S bs cs → List.Forall₂ T as cs := by
  intro as bs cs h1
  induction h1 generalizing cs with
  | nil => intro h2; cases h2; exact .nil
  | cons hr _ ih => intro h2; cases h2 with
    | cons hs h2 => exact .cons (h _ _ _ hr hs) (ih h2)

/-- C83: a tile of which only the beginning is good. The bytes are layers written with this package followed by anything. Whenever
`NewTile` returns, with an error or not, the tile it returns begins with all these layers, in order, complete. -/
theorem C83_newTile_keeps_good_layers (P : Proto) (hP : P = mapboxProto ∨ P = lkProto) (nc : NumCodec) (hnc : nc.Law) (ws : List LayerIn)
    (ls : List LayerWrite) (hw : List.Forall₂ (Written P nc) ws ls) (late : Bool)
    (hlate : late = true ∨ ∀ w ∈ ws, ∀ c ∈ w.calls, c.isAdd = true → 8 ≤ c.expGeom.length) (tail : Bytes)
    (n : Nat) (hn : (ls.flatMap (flush P nc) ++ tail).length + 5 < n) (t : TS) (err : Bool)
    (h : newTileCall P nc (ls.flatMap (flush P nc) ++ tail) n = some (t, err)) :
    ∃ good more, t.layers = good ++ more ∧ ((ws.map (·.name)).filter (fun m => m ≠ [])) <+: t.names ∧
      List.Forall₂ (LayerOf P (ls.flatMap (flush P nc) ++ tail) late n) ws good := by
  have hg : P.Good := by rcases hP with rfl | rfl; exact mapbox_good; exact lk_good
  have hlo := written_ok hw
  have hlen := flush_length_ge P nc ls
  have hn2 : ls.length ≤ n := by
    rw [List.length_append] at hn; omega
  obtain ⟨st, hfa, hnm, e⟩ := newTile_prefix P nc hg hnc ls (fun l hl => (hlo l hl).1) tail n n (by omega) hn2
  have hnames : (ls.filter (fun l => l.name.length > 0)).map (·.name) = (ws.map (·.name)).filter (fun m => m ≠ []) := by
    clear hfa hnm e h hn hlo hlen hn2 hlate st
    induction hw with
    | nil => rfl
    | @cons w l ws ls hwl _ ih =>
      have hname : l.name = w.name := by
        obtain ⟨h1, _⟩ := runCalls_features P w.calls _ l w.fresh.ok hwl.run hwl.layerOk.2.1
        exact h1.trans w.start_name
      by_cases h0 : w.name = []
      · simp [hname, h0]; simpa using ih
      · have : 0 < w.name.length := List.length_pos_iff.2 h0
        rw [List.filter_cons_of_pos (by simpa [hname] using this), List.map_cons, List.map_cons, List.filter_cons_of_pos (by simpa using h0), ih, hname]
  generalize hb : ls.flatMap (flush P nc) ++ tail = b at *
  have hinv := whileK_inv (fun st : TS => decide (st.pos < b.length)) (tileBody P nc b n) (fun s => st.layers <+: s.layers ∧ st.names <+: s.names)
    (fun s s' => tileBody_appends P nc b n st.layers st.names s s') (n - ls.length) st ⟨List.prefix_rfl, List.prefix_rfl⟩
  rw [← e] at hinv
  obtain ⟨ht1, ht2, _⟩ := newTileCall_state h
  rw [ht1] at hinv
  obtain ⟨⟨more, hmore⟩, hpn⟩ := hinv
  have hpn := hpn.trans ht2
  refine ⟨st.layers, more, hmore.symm, by rw [← hnames, ← hnm]; exact hpn, ?_⟩
  have hw' : List.Forall₂ (fun w l => Written P nc w l ∧ w ∈ ws) ws ls := by
    rw [List.forall₂_iff_get] at hw ⊢
    exact ⟨hw.1, fun i h1 h2 => ⟨hw.2 i h1 h2, by simp⟩⟩
  refine forall₂_trans' ?_ hw' hfa
  rintro w l o ⟨hwl, hmem⟩ ⟨ps, p, s, rfl, _, hps⟩
  exact hwl.layerOf hg b late n (by omega) (by rcases hlate with h | h; exact Or.inl h; exact Or.inr (h w hmem)) ps p _ hps

/-- `o` is what `ReadTile` makes of the call `c` on the layer `w`: id (none for 0 or no id), properties with the layer's name added, geometry, extent. -/
structure FeatureOut (w : LayerIn) (c : Call) (o : OutFeature) : Prop where
  id : o.id = if c.expId ≠ 0 then some c.expId else none
  props : ∃ ps, o.props = ps ++ [([108, 97, 121, 101, 114], .str w.name)] ∧
    List.Forall₂ (fun (p : Bytes × GoVal) (x : Bytes × Val) => x.1 = p.1 ∧ ReadAs p.2 x.2) c.props ps
  geom : loadGeometry c.expType c.expGeom = some o.geom
  extent : o.extent = w.wantExtent

theorem lazy_out {P : Proto} {b : Bytes} {late : Bool} {n : Nat} {w : LayerIn} {L : Layer} (h : LayerOf P b late n w L) {c : Call} {p : Int}
    (hgeom : c.expGeom ≠ []) {o : OutFeature} (hcp : ∃ f, readFeature P b late n L p = .ok f ∧ f.extent = L.extent ∧ FeatureOf b c f)
    (ho : LazyWithLayer P b late n L p o) : FeatureOut w c o := by
  obtain ⟨f, h1, h2, h3⟩ := hcp
  obtain ⟨f', x, h4, h5, rfl⟩ := ho
  rw [h1, Res.ok.injEq] at h4
  subst h4
  unfold toGeoJSON at h5
  cases hg : loadGeom b f with
  | none => simp [hg] at h5
  | some g =>
    simp only [hg, Option.map_some, Option.some.injEq] at h5
    subst h5
    refine ⟨by simp [h3.id], ⟨f.props, by simp [h.name, layerKey], h3.props⟩, ?_, by simp [h2, h.extent]⟩
    unfold loadGeom at hg
    rw [h3.geometry hgeom, Option.bind_some, h3.type] at hg
    exact hg

/-- The bulk loops on the same beginning. -/
theorem readTile_prefix (P : Proto) (nc : NumCodec) (hP : P.Good) (hnc : nc.Law) (ws : List LayerIn) (ls : List LayerWrite)
    (hw : List.Forall₂ (Written P nc) ws ls)
    (hfull : ∀ w ∈ ws, ∀ c ∈ w.calls, c.isAdd = true → c.expType ≠ 0 ∧ c.expGeom ≠ [] ∧ loadGeometry c.expType c.expGeom ≠ none)
    (hids : ∀ w ∈ ws, (w.calls.filter (·.isAdd)).Pairwise fun c d => d.expId = 0 → c.expId = 0)
    (aw : Bool) (skip : Int) (hskip : 0 ≤ skip)
    (tail : Bytes) (n m : Nat) (hn : (ls.flatMap (flush P nc) ++ tail).length + 5 < n) (hm : ls.length ≤ m) :
    ∃ (st : BS) (oss : List (List OutFeature)), At (ls.flatMap (flush P nc) ++ tail) st.pos tail ∧ st.outs = oss.flatten ∧
      List.Forall₂ (fun (w : LayerIn) os => List.Forall₂ (FeatureOut w) (w.calls.filter (·.isAdd)) os) ws oss ∧
      whileK (fun st : BS => st.pos < (ls.flatMap (flush P nc) ++ tail).length)
          (bulkBody P nc (ls.flatMap (flush P nc) ++ tail) true aw skip n) m ⟨0, []⟩ =
        whileK (fun st : BS => st.pos < (ls.flatMap (flush P nc) ++ tail).length)
          (bulkBody P nc (ls.flatMap (flush P nc) ++ tail) true aw skip n) (m - ls.length) st := by
  set b := ls.flatMap (flush P nc) ++ tail with hb
  have hzip : ∃ zs : List (LayerIn × LayerWrite), zs.map Prod.fst = ws ∧ zs.map Prod.snd = ls ∧ ∀ z ∈ zs, Written P nc z.1 z.2 := by
    clear hn hm hb hfull hids
    induction hw with
    | nil => exact ⟨[], rfl, rfl, by simp⟩
    | @cons w l ws ls h _ ih =>
      obtain ⟨zs, h1, h2, h3⟩ := ih
      exact ⟨(w, l) :: zs, by simp [h1], by simp [h2], by
        intro z hz
        rcases List.mem_cons.1 hz with rfl | hz
        · exact h
        · exact h3 z hz⟩
  obtain ⟨zs, z1, z2, z3⟩ := hzip
  have hzl : zs.length = ls.length := by rw [← z2]; simp
  obtain ⟨st, ⟨done, oss, hd, hat, hou, hfa⟩, e⟩ := whileK_list (fun st : BS => decide (st.pos < b.length)) (bulkBody P nc b true aw skip n)
    (fun (xs : List (LayerIn × LayerWrite)) st => ∃ (done : List (LayerIn × LayerWrite)) (oss : List (List OutFeature)), zs = done ++ xs ∧
      At b st.pos ((xs.map Prod.snd).flatMap (flush P nc) ++ tail) ∧ st.outs = oss.flatten ∧
      List.Forall₂ (fun (w : LayerIn) os => List.Forall₂ (FeatureOut w) (w.calls.filter (·.isAdd)) os) (done.map Prod.fst) oss)
    (by
      rintro ⟨w, l⟩ xs st ⟨done, oss, hd, hat, hou, hfa⟩
      have hmz : (w, l) ∈ zs := by rw [hd]; simp
      have hwl : Written P nc w l := z3 _ hmz
      have hmw : w ∈ ws := by rw [← z1]; exact List.mem_map_of_mem hmz
      have hm : l ∈ ls := by rw [← z2]; exact List.mem_map_of_mem hmz
      have hlo := hwl.layerOk.1
      rw [List.map_cons, List.flatMap_cons, flush, List.append_assoc, encBytes_app] at hat
      have hfit := hlo.body
      have hlb : (layerBody P nc l).length < b.length := by
        have h1 := flatMap_length_mem (flush P nc) ls l hm
        have h2 := encBytes_length P.layers (layerBody P nc l)
        unfold flush at h1
        have h3 := lt_of_lt_of_le h2 h1
        rw [hb, List.length_append]
        exact Nat.lt_of_lt_of_le h3 (Nat.le_add_right _ _)
      have hpos := hat.pos
      simp only [List.length_cons] at hpos
      refine ⟨by simp only [decide_eq_true_eq]; omega, ?_⟩
      have h1 := hat.adv1
      obtain ⟨ps, hps, hnl⟩ := newLayer_at P nc hP hnc b l hlo _ _ h1.adv n (by omega)
      have hsz : ((layerBody P nc l).length : Int) ≠ 0 := by
        have := layerBody_length P nc l
        have h2 : 1 ≤ (encUInt P.version l.version).length := by simp [encUInt]
        omega
      set q : Int := st.pos + 1 + ((encVarint (layerBody P nc l).length).length : Int) with hq
      set L := readBack l ps q (q + (layerBody P nc l).length) with hL
      obtain ⟨hfl, hfi⟩ := hwl.full hP b n (by omega) (hfull w hmw) L ⟨rfl, rfl⟩ ps hps skip hskip
      obtain ⟨os, i1, i2⟩ := bulkFeatures_lazy P b true n L skip L.features ⟨0, 0, 0⟩ (fun p hp => (hfl p hp).1)
        (pairwise_of_forall₂ (by
          intro p c q d hp hq hcd f g hf hg hz
          rw [hp f hf]
          exact hcd (by rw [← hq g hg]; exact hz)) hfi (hids w hmw)) (.inl rfl) (fun p hp => (hfl p hp).2)
      have hLof : LayerOf P b true n w L := hwl.layerOf hP b true n (by omega) (Or.inl rfl) ps _ _ hps
      have hcalls : ∀ c ∈ w.calls.filter (·.isAdd), c.expGeom ≠ [] := by
        intro c hc
        obtain ⟨hc1, hc2⟩ := List.mem_filter.1 hc
        exact (hfull w hmw c hc1 hc2).2.1
      have hfo : List.Forall₂ (FeatureOut w) (w.calls.filter (·.isAdd)) os := by
        have hf := hLof.features
        have hf' : List.Forall₂ (fun c p => c.expGeom ≠ [] ∧ ∃ f, readFeature P b true n L p = .ok f ∧ f.extent = L.extent ∧ FeatureOf b c f)
            (w.calls.filter (·.isAdd)) L.features := by
          rw [List.forall₂_iff_get] at hf ⊢
          exact ⟨hf.1, fun i h1 h2 => ⟨hcalls _ (by simp), hf.2 i h1 h2⟩⟩
        refine forall₂_trans' ?_ hf' i2
        intro c p o hcp ho
        exact lazy_out hLof hcp.1 hcp.2 ho
      refine ⟨⟨q + (layerBody P nc l).length, st.outs ++ os⟩, ?_, done ++ [(w, l)], oss ++ [os], by simp [hd], ?_, by simp [hou], ?_⟩
      · unfold bulkBody
        rw [readTag_at hat, Res.of_some, Res.bind_ok]
        have e1 : tagByte P.layers 2 / 8 = P.layers := by unfold tagByte; omega
        have e2 : tagByte P.layers 2 % 8 = 2 := by unfold tagByte; omega
        simp only [e1, e2]
        rw [if_pos ⟨trivial, trivial⟩, readVarint_at h1 hfit, Res.of_some, Res.bind_ok]
        simp only
        rw [if_pos hsz, hnl aw, Res.bind_ok]
        simp only
        rw [i1, Res.bind_ok]
      · exact At.adv h1.adv
      · rw [List.map_append]
        exact List.rel_append hfa (.cons hfo .nil))
    zs m ⟨0, []⟩ (by omega) ⟨[], [], rfl, by rw [z2, ← hb]; exact At.zero b, rfl, .nil⟩
  have hd' : done = zs := by simpa using hd.symm
  subst hd'
  rw [z1] at hfa
  rw [hzl] at e
  exact ⟨st, oss, by simpa using hat, hou, hfa, e⟩

/-- `ReadTile` only appends features. -/
theorem bulkBody_appends (P : Proto) (nc : NumCodec) (b : Bytes) (late aw : Bool) (skip : Int) (n : Nat) (us : List OutFeature) (s s' : BS)
    (hs : us <+: s.outs) (h : bulkBody P nc b late aw skip n s = .ok s') : us <+: s'.outs := by
  unfold bulkBody at h
  obtain ⟨⟨k, w, q⟩, _, h⟩ := Res.bind_eq_ok h
  simp only at h
  split at h
  · obtain ⟨⟨z, r⟩, _, h⟩ := Res.bind_eq_ok h
    simp only at h
    split at h
    · obtain ⟨⟨L', ns'⟩, _, h⟩ := Res.bind_eq_ok h
      obtain ⟨os, _, h⟩ := Res.bind_eq_ok h
      simp only [Res.ok.injEq] at h
      rw [← h]
      exact hs.trans (List.prefix_append _ _)
    · simp only [Res.ok.injEq] at h
      rw [← h]; exact hs
  · simp only [Res.ok.injEq] at h
    rw [← h]; exact hs

/-- C83: the bytes are layers written with this package, all of whose features have a type and a geometry, none without id after one of its layer with an id, followed by
anything. Whenever `ReadTile` returns, with an error or not, the features it returns begin with those of these layers. -/
theorem C83_readTile_keeps_good_features (P : Proto) (hP : P = mapboxProto ∨ P = lkProto) (nc : NumCodec) (hnc : nc.Law) (ws : List LayerIn)
    (ls : List LayerWrite) (hw : List.Forall₂ (Written P nc) ws ls)
    (hfull : ∀ w ∈ ws, ∀ c ∈ w.calls, c.isAdd = true → c.expType ≠ 0 ∧ c.expGeom ≠ [] ∧ loadGeometry c.expType c.expGeom ≠ none)
    (hids : ∀ w ∈ ws, (w.calls.filter (·.isAdd)).Pairwise fun c d => d.expId = 0 → c.expId = 0)
    (tail : Bytes) (n : Nat) (hn : (ls.flatMap (flush P nc) ++ tail).length + 5 < n) (os : List OutFeature) (err : Bool)
    (h : readTileCall P nc (ls.flatMap (flush P nc) ++ tail) true n = some (os, err)) :
    ∃ (oss : List (List OutFeature)) (more : List OutFeature), os = oss.flatten ++ more ∧
      List.Forall₂ (fun (w : LayerIn) os => List.Forall₂ (FeatureOut w) (w.calls.filter (·.isAdd)) os) ws oss := by
  have hg : P.Good := by rcases hP with rfl | rfl; exact mapbox_good; exact lk_good
  have hlen := flush_length_ge P nc ls
  have hn2 : ls.length ≤ n := by
    rw [List.length_append] at hn; omega
  obtain ⟨st, oss, _, hou, hfa, e⟩ := readTile_prefix P nc hg hnc ws ls hw hfull hids true 0 le_rfl tail n n hn hn2
  generalize hb : ls.flatMap (flush P nc) ++ tail = b at *
  have hinv := whileK_inv (fun st : BS => decide (st.pos < b.length)) (bulkBody P nc b true true 0 n) (fun s => st.outs <+: s.outs)
    (fun s s' => bulkBody_appends P nc b true true 0 n st.outs s s') (n - ls.length) st List.prefix_rfl
  rw [← e] at hinv
  have ht : (whileK (fun st : BS => decide (st.pos < b.length)) (bulkBody P nc b true true 0 n) n ⟨0, []⟩).1.outs = os := by
    unfold readTileCall at h
    generalize whileK (fun st : BS => decide (st.pos < b.length)) (bulkBody P nc b true true 0 n) n ⟨0, []⟩ = x at h
    obtain ⟨s, q⟩ := x
    cases q <;> simp at h <;> exact h.1
  rw [ht] at hinv
  obtain ⟨more, hmore⟩ := hinv
  exact ⟨oss, more, by rw [← hou]; exact hmore.symm, hfa⟩

/-- C83: without anything after the layers, `ReadTile` returns exactly their features, and an error exactly when there is none. -/
theorem C83_readTile_good (P : Proto) (hP : P = mapboxProto ∨ P = lkProto) (nc : NumCodec) (hnc : nc.Law) (ws : List LayerIn)
    (ls : List LayerWrite) (hw : List.Forall₂ (Written P nc) ws ls)
    (hfull : ∀ w ∈ ws, ∀ c ∈ w.calls, c.isAdd = true → c.expType ≠ 0 ∧ c.expGeom ≠ [] ∧ loadGeometry c.expType c.expGeom ≠ none)
    (hids : ∀ w ∈ ws, (w.calls.filter (·.isAdd)).Pairwise fun c d => d.expId = 0 → c.expId = 0)
    (n : Nat) (hn : (ls.flatMap (flush P nc)).length + 5 < n) :
    ∃ (oss : List (List OutFeature)), readTileCall P nc (ls.flatMap (flush P nc)) true n = some (oss.flatten, decide (oss.flatten = [])) ∧
      List.Forall₂ (fun (w : LayerIn) os => List.Forall₂ (FeatureOut w) (w.calls.filter (·.isAdd)) os) ws oss := by
  have hg : P.Good := by rcases hP with rfl | rfl; exact mapbox_good; exact lk_good
  have hlen := flush_length_ge P nc ls
  obtain ⟨st, oss, hat, hou, hfa, e⟩ := readTile_prefix P nc hg hnc ws ls hw hfull hids true 0 le_rfl [] n n (by simpa using hn) (by omega)
  rw [List.append_nil] at e hat
  refine ⟨oss, ?_, hfa⟩
  generalize ls.flatMap (flush P nc) = b at *
  have hp := hat.pos
  obtain ⟨k, hk⟩ : ∃ k, n - ls.length = k + 1 := ⟨n - ls.length - 1, by omega⟩
  rw [hk, whileK, if_neg (by simp at hp; simp; omega)] at e
  unfold readTileCall
  rw [e, ← hou]

/-! ## `ReadRawTile` -/

theorem whileK_rel {S T : Type} (R : S → T → Prop) (c1 : S → Bool) (c2 : T → Bool) (b1 : S → Res S) (b2 : T → Res T)
    (hc : ∀ s t, R s t → c1 s = c2 t) (hb : ∀ s t, R s t → resRel R (b1 s) (b2 t)) :
    ∀ (n : Nat) (s : S) (t : T), R s t → R (whileK c1 b1 n s).1 (whileK c2 b2 n t).1 ∧ (whileK c1 b1 n s).2 = (whileK c2 b2 n t).2 := by
  intro n
  induction n with
  | zero => intro s t h; exact ⟨h, rfl⟩
  | succ n ih =>
    intro s t h
    rw [whileK, whileK, hc s t h]
    by_cases h1 : c2 t = true
    · rw [if_pos h1, if_pos h1]
      have := hb s t h
      cases e1 : b1 s <;> cases e2 : b2 t <;> rw [e1, e2] at this
      all_goals first
        | exact ih _ _ this
        | exact this.elim
        | exact ⟨h, rfl⟩
    · rw [if_neg h1, if_neg h1]
      exact ⟨h, rfl⟩

theorem raw_loop (P : Proto) (nc : NumCodec) (b : Bytes) (late : Bool) (n : Nat) :
    SameBS (whileK (fun st : RS => st.pos < b.length) (rawBody P nc b late n) n ⟨0, [], 0⟩).1
        (whileK (fun st : BS => st.pos < b.length) (bulkBody P nc b late false 1 n) n ⟨0, []⟩).1 ∧
      (whileK (fun st : RS => st.pos < b.length) (rawBody P nc b late n) n ⟨0, [], 0⟩).2 =
        (whileK (fun st : BS => st.pos < b.length) (bulkBody P nc b late false 1 n) n ⟨0, []⟩).2 :=
  whileK_rel SameBS _ _ _ _ (fun s t h => by rw [h.1]) (fun s t h => rawBody_same P nc b late n h) n _ _ ⟨rfl, rfl⟩

/-- C83: `ReadRawTile` on a tile that cannot be read to the end returns nothing at all: no features, no points and no error, whatever
the layers before the bad one held. -/
theorem C83_readRawTile_silent (P : Proto) (nc : NumCodec) (b : Bytes) (late : Bool) (n : Nat) (t : Tid.TileID) :
    readRawTileCall P nc b late n t = some ⟨none, none, false⟩ ↔ readTile P nc b late false 1 n = .panic := by
  obtain ⟨h1, h2⟩ := raw_loop P nc b late n
  unfold readRawTileCall readTile
  rw [whileK_whileR]
  generalize whileK (fun st : RS => decide (st.pos < b.length)) (rawBody P nc b late n) n ⟨0, [], 0⟩ = x at *
  generalize whileK (fun st : BS => decide (st.pos < b.length)) (bulkBody P nc b late false 1 n) n ⟨0, []⟩ = y at *
  obtain ⟨s, e⟩ := x
  obtain ⟨s', e'⟩ := y
  simp only at h2
  subst h2
  cases e <;> simp [Res.bind]

/-- C83: on a tile that can be read to the end, `ReadRawTile` returns the features of the bulk reader (ids, properties, geometries in
tile coordinates), two points, and an error exactly when there is no feature. -/
theorem C83_readRawTile_ok (P : Proto) (nc : NumCodec) (b : Bytes) (late : Bool) (n : Nat) (t : Tid.TileID) (os : List OutFeature)
    (h : readTile P nc b late false 1 n = .ok os) :
    ∃ fs pts, readRawTileCall P nc b late n t = some ⟨some fs, some pts, decide (os = [])⟩ ∧ fs.length = os.length ∧
      ∀ (i : Nat) (f o : OutFeature), fs[i]? = some f → os[i]? = some o → f.id = o.id ∧ f.props = o.props ∧ f.geom = o.geom := by
  obtain ⟨h1, h2⟩ := raw_loop P nc b late n
  unfold readRawTileCall
  unfold readTile at h
  rw [whileK_whileR] at h
  generalize whileK (fun st : RS => decide (st.pos < b.length)) (rawBody P nc b late n) n ⟨0, [], 0⟩ = x at *
  generalize whileK (fun st : BS => decide (st.pos < b.length)) (bulkBody P nc b late false 1 n) n ⟨0, []⟩ = y at *
  obtain ⟨s, e⟩ := x
  obtain ⟨s', e'⟩ := y
  simp only at h2
  subst h2
  cases e with
  | panicked => simp [Res.bind] at h
  | hang => simp [Res.bind] at h
  | done =>
    simp only [Res.bind_ok, Res.ok.injEq] at h
    subst h
    have hl : s.outs.length = s'.outs.length := by
      have := congrArg List.length h1.2
      simpa using this
    have hd : decide (s'.outs = []) = decide (s.outs = []) := by
      congr 1
      rw [eq_iff_iff, ← List.length_eq_zero_iff, ← List.length_eq_zero_iff, hl]
    rw [hd]
    refine ⟨s.outs, (MvtProj.toLonLat t (if s.extent = 0 then (4096 : Int) else s.extent) (0, 0), MvtProj.toLonLat t
      (if s.extent = 0 then (4096 : Int) else s.extent) (((if s.extent = 0 then (4096 : Int) else s.extent : Int) : ℝ),
        ((if s.extent = 0 then (4096 : Int) else s.extent : Int) : ℝ))), rfl, hl, ?_⟩
    · intro i f o hf ho
      have := congrArg (fun l => l[i]?) h1.2
      simp only [List.getElem?_map, hf, ho, Option.map_some, Option.some.injEq, OutFeature.strip, OutFeature.mk.injEq, and_true] at this
      exact this

/-- C83: when `ReadRawTile` reports an error the tile was read to the end and has no feature. -/
theorem C83_readRawTile_error (P : Proto) (nc : NumCodec) (b : Bytes) (late : Bool) (n : Nat) (t : Tid.TileID) (r : RawRes)
    (h : readRawTileCall P nc b late n t = some r) (he : r.err = true) : r.feats = some [] ∧ readTile P nc b late false 1 n = .ok [] := by
  obtain ⟨h1, h2⟩ := raw_loop P nc b late n
  unfold readRawTileCall at h
  unfold readTile
  rw [whileK_whileR]
  generalize whileK (fun st : RS => decide (st.pos < b.length)) (rawBody P nc b late n) n ⟨0, [], 0⟩ = x at *
  generalize whileK (fun st : BS => decide (st.pos < b.length)) (bulkBody P nc b late false 1 n) n ⟨0, []⟩ = y at *
  obtain ⟨s, e⟩ := x
  obtain ⟨s', e'⟩ := y
  simp only at h2
  subst h2
  cases e with
  | panicked => simp only [Option.some.injEq] at h; rw [← h] at he; simp at he
  | hang => simp at h
  | done =>
    simp only [Option.some.injEq] at h
    rw [← h] at he ⊢
    simp only [decide_eq_true_eq] at he
    have hl : s'.outs = [] := by
      have := congrArg List.length h1.2
      rw [he] at this
      simpa using this.symm
    simp [he, hl, Res.bind_ok]

/-! ### The two points of `ReadRawTile` -/

theorem rowf_inj {a c : ℝ} (a1 : -90 < a) (a2 : a < 90) (c1 : -90 < c) (c2 : c < 90) (h : Tid.rowf a = Tid.rowf c) : a = c := by
  have hpi := Real.pi_pos
  unfold Tid.rowf at h
  have h1 : Real.arsinh (Real.tan (a * (Real.pi / 180))) = Real.arsinh (Real.tan (c * (Real.pi / 180))) := by
    have : Real.arsinh (Real.tan (a * (Real.pi / 180))) / Real.pi = Real.arsinh (Real.tan (c * (Real.pi / 180))) / Real.pi := by linarith
    exact (div_left_inj' hpi.ne').1 this
  have h2 := Real.arsinh_injective h1
  have h3 : a * (Real.pi / 180) = c * (Real.pi / 180) := by
    rw [← Real.arctan_tan (x := a * (Real.pi / 180)) (by nlinarith) (by nlinarith), h2, Real.arctan_tan (by nlinarith) (by nlinarith)]
  have : Real.pi / 180 ≠ 0 := by positivity
  exact mul_right_cancel₀ this h3

theorem toLonLat_corner (t : Tid.TileID) (e : Int) (he : e ≠ 0) (X Y : Int) (n : ℝ) (hn : n = 2 ^ t.Z) (dx dy : ℝ)
    (hx : (t.X : ℝ) + dx = X) (hy : (t.Y : ℝ) + dy = Y) :
    MvtProj.toLonLat t e ((e : ℝ) * dx, (e : ℝ) * dy) = ((X : ℝ) / n * 360 - 180,
      180 / Real.pi * Real.arctan (Real.sinh (Real.pi * (1 - 2 * (Y : ℝ) / n)))) := by
  have hn0 : (0 : ℝ) < n := by rw [hn]; positivity
  have e0 : (e : ℝ) ≠ 0 := by exact_mod_cast he
  have hpi := Real.pi_pos
  unfold MvtProj.toLonLat MvtProj.projectPt
  simp only [Prod.mk.injEq]
  rw [← hn]
  constructor
  · rw [← hx]; field_simp; ring
  · obtain ⟨r1, r2, r3⟩ := MvtProj.rowf_project ((180 - ((e : ℝ) * dy + e * t.Y) * 360 / (e * n)) * Real.pi / 180)
    refine rowf_inj r2 r3 (Tid.edge_lat _).1 (Tid.edge_lat _).2 ?_
    rw [r1, MvtProj.rowf_edge, ← hy]
    field_simp
    ring

/-- C83: the two points `ReadRawTile` returns are the north-west and the south-east corner of the tile, whatever extents the layers
have (exact arithmetic). -/
theorem C83_readRawTile_corners (P : Proto) (nc : NumCodec) (b : Bytes) (late : Bool) (n : Nat) (t : Tid.TileID) (r : RawRes)
    (h : readRawTileCall P nc b late n t = some r) (p q : ℝ × ℝ) (hc : r.corners = some (p, q)) :
    p = ((Tid.bounds t).W, (Tid.bounds t).N) ∧ q = ((Tid.bounds t).E, (Tid.bounds t).S) := by
  unfold readRawTileCall at h
  generalize whileK (fun st : RS => decide (st.pos < b.length)) (rawBody P nc b late n) n ⟨0, [], 0⟩ = x at *
  obtain ⟨s, e⟩ := x
  cases e with
  | panicked => simp only [Option.some.injEq] at h; rw [← h] at hc; simp at hc
  | hang => simp at h
  | done =>
    simp only [Option.some.injEq] at h
    rw [← h] at hc
    simp only [Option.some.injEq, Prod.mk.injEq] at hc
    generalize hE : (if s.extent = 0 then (4096 : Int) else s.extent) = E at hc
    have hE0 : E ≠ 0 := by
      rw [← hE]
      split
      · show (4096 : Int) ≠ 0
        decide
      · assumption
    have k1 := toLonLat_corner t E hE0 t.X t.Y _ rfl 0 0 (by ring) (by ring)
    have k2 := toLonLat_corner t E hE0 (t.X + 1) (t.Y + 1) _ rfl 1 1 (by push_cast; ring) (by push_cast; ring)
    simp only [mul_zero, mul_one] at k1 k2
    rw [← hc.1, ← hc.2, k1, k2]
    exact ⟨rfl, rfl⟩

/-! ## Concrete cases -/

/-- A good layer `a` with one point, followed by a layer that says it is longer than the bytes. -/
def cutTile : Bytes := flush mapboxProto NumCodec.standard
      ((runCalls mapboxProto (LayerWrite.newConfig [97] 0 0) [.addRaw 5 1 [9, 2, 2] []]).getD (LayerWrite.new [])) ++ [26, 3, 10, 9, 97]

/-- C83, a case: `NewTile` and `ReadTile` return the good layer with an error, and the reader behind `ReadRawTile` panics, so that
`ReadRawTile` returns nothing and no error. -/
theorem C83_example (t : Tid.TileID) :
    ((newTileCall mapboxProto NumCodec.standard cutTile 100).map (fun r => (r.1.names, r.2))) = some ([[97]], true) ∧
    readTileCall mapboxProto NumCodec.standard cutTile true 100 = some ([⟨some 5, [([108, 97, 121, 101, 114], .str [97])], .point (1, 1), 4096⟩], true) ∧
    readRawTileCall mapboxProto NumCodec.standard cutTile true 100 t = some ⟨none, none, false⟩ := by
  refine ⟨by decide +kernel, by decide +kernel, ?_⟩
  rw [C83_readRawTile_silent]
  decide +kernel

end Verif.Mvt
