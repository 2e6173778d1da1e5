import Verif.Props.MvtLayer
import Verif.Proof.MvtBulk
import Verif.Proof.MvtGeom
import Verif.Model.MvtSession
import Mathlib.Data.List.Perm.Basic

/-!
# C31–C34: the readers of vector tiles
-/
namespace Verif.Mvt
open Verif.Go Verif.Pbf

/-! ## C31: lazy and bulk readers -/

/-- C31, for every byte string: if `NewTile` returns a tile whose features can all be read with `Feature` and `LoadGeometry`
and all have a type and a geometry, no feature without id follows one of its layer with an id (`hids`), and no value of a layer has an unexpected wire type (`hwire`; the two copies of
the layer parser differ there), then `ReadTile` returns, layer by layer and feature by feature, what `Feature` +
`ToGeoJSON` return, with the layer's name added as property `layer`, and with no id instead of the id 0. -/
theorem C31_readTile_matches_lazy (P : Proto) (nc : NumCodec) (b : Bytes) (late : Bool) (n : Nat) (t : TS)
    (ht : newTile P nc b n = .ok t)
    (hwire : ∀ L ∈ t.layers, newLayer P nc b n true L.startPos L.endPos = newLayer P nc b n false L.startPos L.endPos)
    (hfull : ∀ L ∈ t.layers, ∀ p ∈ L.features, ∃ f g, readFeature P b late n L p = .ok f ∧ f.geomInt ≠ 0 ∧
      f.geometryPos ≠ 0 ∧ loadGeom b f = some g)
    (hids : ∀ L ∈ t.layers, L.features.Pairwise fun p q => ∀ f g, readFeature P b late n L p = .ok f → readFeature P b late n L q = .ok g →
      g.id = 0 → f.id = 0) :
    ∃ oss : List (List OutFeature), readTile P nc b late true 0 n = .ok oss.flatten ∧
      List.Forall₂ (fun (L : Layer) os => List.Forall₂ (fun p o => ∃ f x, readFeature P b late n L p = .ok f ∧ toGeoJSON b f = some x ∧
        o = { x with id := if f.id ≠ 0 then some f.id else none, props := x.props ++ [([108, 97, 121, 101, 114], .str L.name)] }) L.features os) t.layers oss := by
  obtain ⟨new, oss, h1, h2, h3⟩ := bulkLoop_lazy P nc b late true 0 n t hfull hids (fun _ _ _ _ _ => rfl)
    (fun L hL ns h => by rw [hwire L hL]; exact h) n ⟨0, [], []⟩ ⟨0, []⟩ rfl ht
  simp only [List.nil_append] at h1 h3
  subst h1
  exact ⟨oss, by rw [readTile, h3, Res.bind_ok], h2⟩

/-- Reading a written layer does not depend on which copy of the parser is used. -/
theorem newLayer_copies (P : Proto) (nc : NumCodec) (hP : P.Good) (hnc : nc.Law) (b : Bytes) (l : LayerWrite) (hl : LayerOk P nc l)
    (p : Int) (s : Bytes) (h : At b p (layerBody P nc l ++ s)) (n : Nat) (hn : (layerBody P nc l).length + 1 < n) (aw : Bool) :
    newLayer P nc b n aw p (p + (layerBody P nc l).length) = newLayer P nc b n false p (p + (layerBody P nc l).length) := by
  obtain ⟨ps, _, h⟩ := newLayer_at P nc hP hnc b l hl p s h n hn
  rw [h aw, h false]

theorem Written.full {P : Proto} {nc : NumCodec} (hP : P.Good) {w : LayerIn} {l : LayerWrite} (h : Written P nc w l) (b : Bytes)
    (n : Nat) (hn : 5 ≤ n) (hfull : ∀ c ∈ w.calls, c.isAdd = true → c.expType ≠ 0 ∧ c.expGeom ≠ [] ∧
      loadGeometry c.expType c.expGeom ≠ none)
    (L : Layer) (hL : L.keys = l.keys ∧ L.values = l.values.map stored)
    (ps : List Int) (hps : List.Forall₂ (FeatAt b) ps l.features) (skip : Int) (hskip : 0 ≤ skip) :
    (∀ p ∈ ps, FullFeature P b true n L p ∧ ∀ c : Carry, readFeatureFrom P b true skip n L ⟨c.id, [], c.geometryPos, c.geomInt, 0⟩ p =
      readFeatureFrom P b true 0 n L ⟨c.id, [], c.geometryPos, c.geomInt, 0⟩ p) ∧
    List.Forall₂ (fun p c => ∀ f, readFeature P b true n L p = .ok f → f.id = c.expId) ps (w.calls.filter (·.isAdd)) := by
  obtain ⟨hok, h32, hd⟩ := h.layerOk
  obtain ⟨h1, h2, h3, fs, hfs, hrel⟩ := runCalls_features P w.calls _ l w.fresh.ok h.run h32
  have hfs' : l.features = fs.map (encFeature P) := by rw [hfs]; simp [w.fresh.features]
  have hsub : ∀ f ∈ l.features, Fits f := by
    intro f hf
    have h1 := flatMap_length_mem (encBytes P.features) l.features f hf
    have h2 := encBytes_length P.features f
    have h3 := layerBody_length P nc l
    have h4 := h.body
    unfold Fits; omega
  rw [hfs'] at hps hsub
  have hcs : ∀ c ∈ w.calls.filter (·.isAdd), c ∈ w.calls ∧ c.isAdd = true := by
    intro c hc; simpa using hc
  generalize w.calls.filter (·.isAdd) = adds at hrel hcs
  clear hfs hfs'
  induction hrel generalizing ps with
  | nil => cases hps; exact ⟨by simp, .nil⟩
  | @cons c f adds fs hcf _ ih =>
    cases hps with
    | @cons p _ ps _ hp hps =>
    obtain ⟨ih1, ih2⟩ := ih _ hps (fun f hf => hsub f (List.mem_cons_of_mem _ hf)) (fun c hc => hcs c (by simp [hc]))
    obtain ⟨ts, ht, rfl⟩ := hcf
    obtain ⟨hc1, hc2⟩ := hcs c (by simp)
    obtain ⟨n2, n3, n4⟩ := hfull c hc1 hc2
    have key : ∀ (sk : Int), 0 ≤ sk → ∀ f0 : Feature, f0.props = [] → ∃ f, readFeatureFrom P b true sk n L f0 p = .ok f ∧
        f.id = (if c.expId = 0 ∧ (c.feature ts).id = none then f0.id else c.expId) ∧
        f.geomInt = c.expType ∧ f.geometryPos = geomPosOf P p (c.feature ts) 0 ∧ 0 < f.geometryPos ∧ f.extent = L.extent ∧
        resolveTags l.keys (l.values.map stored) ts = some f.props ∧ loadRaw b f = some c.expGeom := by
      intro sk hsk f0 hf0
      obtain ⟨f, hf, g1, ⟨r, g2, g2'⟩, f1, f2, f3, f4, f5, _⟩ := callFeature_at P hP b true sk hsk n l L f0 hf0 hL _ c hc2 (h.ok c hc1)
        ts ht h32 (hsub _ (by simp)) (Or.inl rfl) hn hp
      refine ⟨f, hf, f1, ?_, (g1 n3).1, (g1 n3).2, f3, by rw [g2, g2'], f5 n3⟩
      rw [f2]
      split
      · rename_i hx
        cases c with
        | tags _ => simp [Call.isAdd] at hc2
        | addRaw id t g ps =>
          simp only [Call.feature] at hx
          by_cases h0 : t = 0
          · exact absurd h0 n2
          · simp [h0] at hx
        | add id t ws ps => simp [Call.feature] at hx
        | addBare id co ps => exact absurd rfl n2
      · rfl
    obtain ⟨f, k1, k2, k3, k4, k5, k6, k7, k8⟩ := key 0 le_rfl ⟨0, [], 0, 0, 0⟩ rfl
    have hid : f.id = c.expId := by
      rw [k2]
      by_cases h0 : c.expId = 0 ∧ (c.feature ts).id = none
      · rw [if_pos h0, h0.1]
      · rw [if_neg h0]
    refine ⟨?_, .cons (fun f' hf' => ?_) ih2⟩
    · intro q hq
      rcases List.mem_cons.mp hq with rfl | hq
      · refine ⟨?_, ?_⟩
        · obtain ⟨g, hg⟩ := Option.ne_none_iff_exists'.mp n4
          refine ⟨f, g, k1, by rw [k3]; exact n2, by omega, ?_⟩
          rw [loadGeom, k8, Option.bind_some, k3, hg]
        · intro cr
          obtain ⟨f, k1, k2, k3, k4, k5, k6, k7, k8⟩ := key 0 le_rfl ⟨cr.id, [], cr.geometryPos, cr.geomInt, 0⟩ rfl
          obtain ⟨f', k1', k2', k3', k4', k5', k6', k7', k8'⟩ := key skip hskip ⟨cr.id, [], cr.geometryPos, cr.geomInt, 0⟩ rfl
          rw [k1, k1']
          congr 1
          have k9 : f'.props = f.props := by rw [k7] at k7'; exact (Option.some.inj k7').symm
          obtain ⟨a1, a2, a3, a4, a5⟩ := f
          obtain ⟨b1, b2, b3, b4, b5⟩ := f'
          simp only at k2 k2' k3 k3' k4 k4' k6 k6' k9
          rw [k2, k2', k3, k3', k4, k4', k6, k6', k9]
      · exact ih1 q hq
    · unfold readFeature at hf'
      rw [k1] at hf'
      simp only [Res.ok.injEq] at hf'
      rw [← hf', hid]

/-- A pairwise relation carried over to related elements. -/
theorem pairwise_of_forall₂ {α β : Type} {R : α → β → Prop} {S : β → β → Prop} {S' : α → α → Prop}
    (h : ∀ a b c d, R a b → R c d → S b d → S' a c) {xs : List α} {ys : List β} (hr : List.Forall₂ R xs ys) :
    ys.Pairwise S → xs.Pairwise S' := by
  induction hr with
  | nil => intro _; exact .nil
  | @cons a b xs ys hab hr ih =>
    intro hp
    rw [List.pairwise_cons] at hp ⊢
    refine ⟨?_, ih hp.2⟩
    intro c hc
    obtain ⟨i, hi⟩ := List.getElem?_of_mem hc
    obtain ⟨hi', e⟩ := List.getElem?_eq_some_iff.mp hi
    have := hr.get (i := i) hi' (by rw [← hr.length_eq]; exact hi')
    simp only [List.get_eq_getElem, e] at this
    exact h _ _ _ _ hab this (hp.1 _ (List.getElem_mem _))

/-- C31 for tiles written by this package (any number of layers): when every added feature has a type and a
geometry that can be loaded, and none without id follows one with an id in its layer (so if all have an id, or none has), `ReadTile` (`aw = true`, `skip = 0`) and `ReadRawTile` (`aw = false`, `skip = 1`) return what the
lazy reader returns, with no id instead of the id 0. -/
theorem C31_written_tiles (P : Proto) (hP : P = mapboxProto ∨ P = lkProto) (nc : NumCodec) (hnc : nc.Law) (ws : List LayerIn) (ls : List LayerWrite)
    (hw : List.Forall₂ (Written P nc) ws ls)
    (hfull : ∀ w ∈ ws, ∀ c ∈ w.calls, c.isAdd = true → c.expType ≠ 0 ∧ c.expGeom ≠ [] ∧ loadGeometry c.expType c.expGeom ≠ none)
    (hids : ∀ w ∈ ws, (w.calls.filter (·.isAdd)).Pairwise fun c d => d.expId = 0 → c.expId = 0)
    (aw : Bool) (skip : Int) (hskip : 0 ≤ skip) (n : Nat) (hn : (ls.flatMap (flush P nc)).length + 5 < n) :
    ∃ (t : TS) (oss : List (List OutFeature)), newTile P nc (ls.flatMap (flush P nc)) n = .ok t ∧
      readTile P nc (ls.flatMap (flush P nc)) true aw skip n = .ok oss.flatten ∧
      List.Forall₂ (fun (L : Layer) os => List.Forall₂ (fun p o => ∃ f x, readFeature P (ls.flatMap (flush P nc)) true n L p = .ok f ∧
        toGeoJSON (ls.flatMap (flush P nc)) f = some x ∧ o = { x with id := if f.id ≠ 0 then some f.id else none, props := x.props ++ [([108, 97, 121, 101, 114], .str L.name)] }) L.features os) t.layers oss := by
  have hg : P.Good := by rcases hP with rfl | rfl; exact mapbox_good; exact lk_good
  have hlo : ∀ l ∈ ls, LayerOk P nc l ∧ ∃ w ∈ ws, Written P nc w l := by
    intro l hl
    obtain ⟨i, hi⟩ := List.getElem?_of_mem hl
    obtain ⟨hi', e⟩ := List.getElem?_eq_some_iff.mp hi
    have := hw.get (i := i) (by rw [hw.length_eq]; exact hi') hi'
    simp only [List.get_eq_getElem, e] at this
    exact ⟨this.layerOk.1, _, List.getElem_mem _, this⟩
  obtain ⟨out, hout, hrel⟩ := newTile_at P nc hg hnc ls (fun l hl => (hlo l hl).1) n (by omega)
  have hlen : ∀ l ∈ ls, (layerBody P nc l).length + 1 < n := by
    intro l hl
    have h1 := flatMap_length_mem (flush P nc) ls l hl
    have h2 := encBytes_length P.layers (layerBody P nc l)
    unfold flush at h1 hn
    omega
  have hmem : ∀ L ∈ out, ∃ l ∈ ls, ∃ ps p s, L = readBack l ps p (p + (layerBody P nc l).length) ∧
      At (ls.flatMap (flush P nc)) p (layerBody P nc l ++ s) ∧ List.Forall₂ (FeatAt (ls.flatMap (flush P nc))) ps l.features := by
    intro L hL
    obtain ⟨i, hi⟩ := List.getElem?_of_mem hL
    obtain ⟨hi', e⟩ := List.getElem?_eq_some_iff.mp hi
    have := hrel.get (i := i) (by rw [hrel.length_eq]; exact hi') hi'
    simp only [List.get_eq_getElem, e] at this
    exact ⟨_, List.getElem_mem _, this⟩
  generalize ls.flatMap (flush P nc) = b at hn hout hrel hmem ⊢
  have hall' : ∀ L ∈ out, (∀ p ∈ L.features, FullFeature P b true n L p ∧ ∀ c : Carry,
      readFeatureFrom P b true skip n L ⟨c.id, [], c.geometryPos, c.geomInt, 0⟩ p =
      readFeatureFrom P b true 0 n L ⟨c.id, [], c.geometryPos, c.geomInt, 0⟩ p) ∧ L.features.Pairwise (IdKeeps P b true n L) := by
    intro L hL
    obtain ⟨l, hl, ps, p, s, rfl, _, hps⟩ := hmem L hL
    obtain ⟨_, w, hw1, hw2⟩ := hlo l hl
    obtain ⟨a1, a2⟩ := hw2.full hg b n (by omega) (hfull w hw1) (readBack l ps p (p + (layerBody P nc l).length)) ⟨rfl, rfl⟩ ps hps skip hskip
    refine ⟨a1, pairwise_of_forall₂ ?_ a2 (hids w hw1)⟩
    intro p c q d hp hq hcd f g hf hg hz
    rw [hp f hf]
    exact hcd (by rw [← hq g hg]; exact hz)
  have hall := fun L hL => (hall' L hL).1
  obtain ⟨new, oss, h1, h2, h3⟩ := bulkLoop_lazy P nc b true aw skip n _ (fun L hL p hp => (hall L hL p hp).1) (fun L hL => (hall' L hL).2)
    (fun L hL p hp => (hall L hL p hp).2)
    (fun L hL ns h => by
      obtain ⟨l, hl, ps, p, s, rfl, hat, _⟩ := hmem L hL
      simp only [readBack] at h ⊢
      rw [newLayer_copies P nc hg hnc b l (hlo l hl).1 p s hat n (hlen l hl) aw]; exact h)
    n ⟨0, [], []⟩ ⟨0, []⟩ rfl hout
  simp only [List.nil_append] at h1 h3
  subst h1
  exact ⟨_, oss, hout, by rw [readTile, h3, Res.bind_ok], h2⟩

/-- C31, why it fails in general: the second feature of this layer has no id, `ReadTile` gives it the id of the first. -/
theorem C31_leaks_id :
    let b := flush mapboxProto NumCodec.standard
      ((runCalls mapboxProto (LayerWrite.newConfig [97] 0 0) [.addRaw 5 1 [9, 2, 2] [], .addRaw 0 2 [9, 4, 4, 18, 0, 16, 16, 0] []]).getD (LayerWrite.new []))
    let L : Layer := ⟨[97], 4096, 2, [], [], [6, 17], 2, 35⟩
    newTile mapboxProto NumCodec.standard b 100 = .ok ⟨35, [L], [[97]]⟩ ∧
    readFeature mapboxProto b true 100 L 17 = .ok ⟨0, [], 21, 2, 4096⟩ ∧
    readTile mapboxProto NumCodec.standard b true true 0 100 =
      .ok [⟨some 5, [([108, 97, 121, 101, 114], .str [97])], .point (1, 1), 4096⟩, ⟨some 5, [([108, 97, 121, 101, 114], .str [97])], .lineString [(2, 2), (2, 10), (10, 10)], 4096⟩] := by
  decide +kernel

/-- C31, the hypotheses of `C31_written_tiles` are met, for instance by a layer with these calls. -/
example : ∀ c ∈ [Call.addRaw 7 1 [9, 2, 2] [([107], .int 0 5)], .add (.int (-1)) 2 [9, 4, 4, 18, 0, 16, 16, 0] []],
    c.isAdd = true → c.expType ≠ 0 ∧ c.expGeom ≠ [] ∧ loadGeometry c.expType c.expGeom ≠ none := by
  decide +kernel

/-- The ids may also be missing, all of them or in the first features. -/
example : ([Call.addRaw 0 1 [9, 2, 2] [], .addRaw 7 1 [9, 2, 2] [([107], .int 0 5)], .add (.int (-1)) 2 [9, 4, 4, 18, 0, 16, 16, 0] []].filter (·.isAdd)).Pairwise
    fun c d => d.expId = 0 → c.expId = 0 := by
  decide +kernel

/-! ## C32: interleavings -/

/-- The layer a call works on, if any. -/
def Op.layer : Op → Option Nat
  | .feature i => some i
  | .next i => some i
  | .reset i => some i
  | _ => none

/-- C32: the results of the calls on one layer in any schedule are those of the same calls made alone, whatever the other
calls were, wherever they left the shared buffer, and wherever it was at the start. -/
theorem C32_layer_results_independent (P : Proto) (b : Bytes) (late : Bool) (n : Nat) (layers : Nat → Layer) (i : Nat) (ops : List (Op × Int)) :
    ∀ (s s' : Sess) (alone : List (Op × Int)), s.fp i = s'.fp i → alone.map (·.1) = (ops.map (·.1)).filter (fun o => o.layer = some i) →
      (runOps P b late n layers s ops).filter (fun r => r.1.layer = some i) = runOps P b late n layers s' alone := by
  induction ops with
  | nil => intro s s' alone _ h; simp at h; subst h; rfl
  | cons o ops ih =>
    obtain ⟨op, q⟩ := o
    intro s s' alone hfp hal
    rw [runOps]
    by_cases hl : op.layer = some i
    · rw [List.filter_cons_of_pos (by simpa using hl)]
      rw [List.map_cons, List.filter_cons_of_pos (by simpa using hl)] at hal
      cases alone with
      | nil => simp at hal
      | cons a alone =>
        obtain ⟨op', q'⟩ := a
        simp only [List.map_cons, List.cons.injEq] at hal
        obtain ⟨rfl, hal⟩ := hal
        rw [runOps]
        have key : (step P b late n layers s op' q).1 = (step P b late n layers s' op' q').1 ∧
            (step P b late n layers s op' q).2.fp i = (step P b late n layers s' op' q').2.fp i := by
          cases op' with
          | feature j =>
            simp only [Op.layer, Option.some.injEq] at hl; subst hl
            simp only [step, hfp]
            cases (layers j).features[s'.fp j]? <;> simp [Sess.setFp]
          | next j =>
            simp only [Op.layer, Option.some.injEq] at hl; subst hl
            simp [step, hfp]
          | reset j =>
            simp only [Op.layer, Option.some.injEq] at hl; subst hl
            simp [step, Sess.setFp]
          | raw f => simp [Op.layer] at hl
          | load f => simp [Op.layer] at hl
        rw [key.1, ih _ _ alone key.2 hal]
    · rw [List.filter_cons_of_neg (by simpa using hl)]
      rw [List.map_cons, List.filter_cons_of_neg (by simpa using hl)] at hal
      refine ih _ s' alone ?_ hal
      rw [← hfp]
      cases op with
      | feature j =>
        have : i ≠ j := by intro h; exact hl (by simp [Op.layer, h])
        simp only [step]
        cases (layers j).features[s.fp j]? <;> simp [Sess.setFp, this]
      | next j => rfl
      | reset j =>
        have : i ≠ j := by intro h; exact hl (by simp [Op.layer, h])
        simp [step, Sess.setFp, this]
      | raw f => rfl
      | load f => rfl

/-- C32: in any schedule, every `LoadGeometryRaw`/`LoadGeometry` call returns what a call right after `Feature()` would. -/
theorem C32_geometry_results_independent (P : Proto) (b : Bytes) (late : Bool) (n : Nat) (layers : Nat → Layer) (ops : List (Op × Int)) :
    ∀ s : Sess, ∀ r ∈ runOps P b late n layers s ops,
      (∀ f, r.1 = .raw f → r.2 = .raw (loadRaw b f)) ∧ (∀ f, r.1 = .load f → r.2 = .load (loadGeom b f)) := by
  induction ops with
  | nil => intro s r h; simp [runOps] at h
  | cons o ops ih =>
    obtain ⟨op, q⟩ := o
    intro s r h
    rw [runOps] at h
    rcases List.mem_cons.mp h with rfl | h
    · constructor
      · rintro f rfl; rfl
      · rintro f rfl; rfl
    · exact ih _ r h

/-- C32: after `Reset`, the calls `Feature()` on a layer return its features in order, each exactly once, and then errors;
`Next()` says whether one is left. Together with `C32_layer_results_independent` this holds in every schedule. -/
theorem C32_iteration_visits_each_once (P : Proto) (b : Bytes) (late : Bool) (n : Nat) (layers : Nat → Layer) (i : Nat) (qs : List (Int × Int)) (extra : Int) :
    ∀ (s : Sess), qs.length + s.fp i = (layers i).features.length →
      runOps P b late n layers s (qs.flatMap (fun q => [(.next i, q.1), (.feature i, q.2)]) ++ [(.next i, extra)]) =
        ((layers i).features.drop (s.fp i)).flatMap (fun p => [(.next i, .next true), (.feature i, .feature (readFeature P b late n (layers i) p))]) ++
          [(.next i, .next false)] := by
  induction qs with
  | nil =>
    intro s h
    simp at h
    rw [h, List.drop_length]
    simp [runOps, step, h]
  | cons q qs ih =>
    intro s h
    simp only [List.length_cons] at h
    have hlt : s.fp i < (layers i).features.length := by omega
    rw [List.flatMap_cons, List.append_assoc, List.cons_append, List.cons_append, List.nil_append, runOps, runOps]
    have h1 : (step P b late n layers s (.next i) q.1) = (.next true, s) := by simp [step, hlt]
    rw [h1]
    simp only
    have h2 : (step P b late n layers s (.feature i) q.2) = (.feature (readFeature P b late n (layers i) (layers i).features[s.fp i]),
        { s.setFp i (s.fp i + 1) with pos := q.2 }) := by
      simp [step, List.getElem?_eq_getElem hlt, Sess.setFp]
    rw [h2]
    simp only
    rw [ih _ (by simp [Sess.setFp]; omega)]
    conv_rhs => rw [List.drop_eq_getElem_cons hlt]
    simp only [Sess.setFp, if_true, List.flatMap_cons, List.cons_append, List.nil_append]

/-! ## C33: rendering -/

theorem render_written (nc : NumCodec) (b : Bytes) (ls : List LayerWrite) (order : List Layer)
    (h : List.Forall₂ (fun (l : LayerWrite) (o : Layer) => ∃ ps p s, o = readBack l ps p (p + (layerBody mapboxProto nc l).length) ∧
      At b p (layerBody mapboxProto nc l ++ s)) ls order) : render b order = some (ls.flatMap (flush mapboxProto nc)) := by
  induction h with
  | nil => rfl
  | @cons l o ls order h1 _ ih =>
    obtain ⟨ps, p, s, rfl, hat⟩ := h1
    have h0 := hat.nonneg
    have h2 := hat.pos
    rw [List.length_append] at h2
    rw [render, if_pos ⟨h0, by simp [readBack], by simp only [readBack]; omega⟩, ih, Option.map_some]
    congr 1
    rw [List.flatMap_cons]
    congr 1
    have e : ((readBack l ps p (p + (layerBody mapboxProto nc l).length)).endPos - (readBack l ps p (p + (layerBody mapboxProto nc l).length)).startPos).toNat =
        (layerBody mapboxProto nc l).length := by simp [readBack]
    rw [e]
    simp only [readBack, hat.slice]
    rfl

/-- What two tiles with the same layers have in common. -/
def Layer.content (l : Layer) : Bytes × Int × Int × List Bytes × List Val × Nat := (l.name, l.extent, l.version, l.keys, l.values, l.features.length)

/-- C33 for tiles made of layers this package wrote, with distinct names (so that the layer map holds them all), Mapbox scheme:
for every order in which the map is iterated, `Render` succeeds, `NewTile` of the result succeeds, and it has the layers of
the original tile in that order: same names, extents, versions, keys and values, and features that read back as the same
calls' features. -/
theorem C33_render_roundtrip (nc : NumCodec) (hnc : nc.Law) (ws : List LayerIn) (ls : List LayerWrite)
    (hw : List.Forall₂ (Written mapboxProto nc) ws ls) (n : Nat) (hn : (ls.flatMap (flush mapboxProto nc)).length + 5 < n)
    (t : TS) (ht : newTile mapboxProto nc (ls.flatMap (flush mapboxProto nc)) n = .ok t) (order : List Layer) (ho : order.Perm t.layers) :
    ∃ (b' : Bytes) (t' : TS) (ws' : List LayerIn), render (ls.flatMap (flush mapboxProto nc)) order = some b' ∧ newTile mapboxProto nc b' n = .ok t' ∧
      t'.layers.map Layer.content = order.map Layer.content ∧ ws'.Perm ws ∧
      List.Forall₂ (LayerOf mapboxProto (ls.flatMap (flush mapboxProto nc)) true n) ws' order ∧
      List.Forall₂ (LayerOf mapboxProto b' true n) ws' t'.layers := by
  -- pair up each layer with its calls
  obtain ⟨wl, rfl, rfl, hwl⟩ : ∃ wl : List (LayerIn × LayerWrite), ws = wl.map (·.1) ∧ ls = wl.map (·.2) ∧ ∀ x ∈ wl, Written mapboxProto nc x.1 x.2 := by
    clear ht hn
    induction hw with
    | nil => exact ⟨[], rfl, rfl, by simp⟩
    | @cons w l ws ls h _ ih =>
      obtain ⟨wl, h1, h2, h3⟩ := ih
      exact ⟨(w, l) :: wl, by simp [h1], by simp [h2], by
        intro x hx; rcases List.mem_cons.mp hx with rfl | hx; exact h; exact h3 x hx⟩
  have hlo : ∀ l ∈ wl.map (·.2), LayerOk mapboxProto nc l := by
    intro l hl
    simp only [List.mem_map] at hl
    obtain ⟨x, hx, rfl⟩ := hl
    exact (hwl x hx).layerOk.1
  obtain ⟨out, hout, hrel⟩ := newTile_at mapboxProto nc mapbox_good hnc _ hlo n (by omega)
  rw [hout] at ht
  simp only [Res.ok.injEq] at ht
  subst ht
  simp only at ho
  rw [List.forall₂_map_left_iff] at hrel
  obtain ⟨wl', hf0, hp'⟩ := List.perm_comp_forall₂ ho hrel.flip
  have hf' := hf0.flip
  clear hf0
  have hwl' : ∀ x ∈ wl', Written mapboxProto nc x.1 x.2 := fun x hx => hwl x (hp'.subset hx)
  generalize hb : (wl.map (·.2)).flatMap (flush mapboxProto nc) = b at hf' hn
  have hlen : ((wl'.map (·.2)).flatMap (flush mapboxProto nc)).length = b.length := by
    rw [← hb]
    exact ((hp'.map (·.2)).flatMap_right (flush mapboxProto nc)).length_eq
  have hren : render b order = some ((wl'.map (·.2)).flatMap (flush mapboxProto nc)) := by
    apply render_written
    rw [List.forall₂_map_left_iff]
    exact hf'.imp (fun x o ⟨ps, p, s, h1, h2, _⟩ => ⟨ps, p, s, h1, h2⟩)
  have hlo' : ∀ l ∈ wl'.map (·.2), LayerOk mapboxProto nc l := by
    intro l hl
    simp only [List.mem_map] at hl
    obtain ⟨x, hx, rfl⟩ := hl
    exact (hwl' x hx).layerOk.1
  obtain ⟨out', hout', hrel'⟩ := newTile_at mapboxProto nc mapbox_good hnc _ hlo' n (by omega)
  rw [List.forall₂_map_left_iff] at hrel'
  refine ⟨_, _, wl'.map (·.1), hren, hout', ?_, hp'.map _, ?_, ?_⟩
  · simp only
    generalize (wl'.map (·.2)).flatMap (flush mapboxProto nc) = b' at hrel'
    clear hout' hren hlen hlo' ho hp' hwl'
    induction hf' generalizing out' with
    | nil => cases hrel'; rfl
    | @cons x o wl' order h1 _ ih =>
      cases hrel' with
      | cons h2 hrel' =>
      obtain ⟨ps, p, s, rfl, _, hps⟩ := h1
      obtain ⟨ps', p', s', rfl, _, hps'⟩ := h2
      rw [List.map_cons, List.map_cons, ih _ hrel']
      congr 1
      simp only [Layer.content, readBack, hps.length_eq, hps'.length_eq]
  · rw [List.forall₂_map_left_iff]
    clear hrel' hout' hren hlen hlo' ho hp'
    induction hf' with
    | nil => exact .nil
    | @cons x o wl' order h1 _ ih =>
      obtain ⟨ps, p, s, rfl, _, hps⟩ := h1
      exact .cons ((hwl' x (by simp)).layerOf mapbox_good b true n (by omega) (Or.inl rfl) ps _ _ hps) (ih (fun y hy => hwl' y (by simp [hy])))
  · simp only
    rw [List.forall₂_map_left_iff]
    generalize (wl'.map (·.2)).flatMap (flush mapboxProto nc) = b' at hrel'
    clear hout' hren hlen hlo' ho hp' hf'
    induction hrel' with
    | nil => exact .nil
    | @cons x o wl' order h1 _ ih =>
      obtain ⟨ps, p, s, rfl, _, hps⟩ := h1
      exact .cons ((hwl' x (by simp)).layerOf mapbox_good b' true n (by omega) (Or.inl rfl) ps _ _ hps) (ih (fun y hy => hwl' y (by simp [hy])))

/-- C33 fails for the LK scheme: `Render` writes the Mapbox layer tag, which the LK reader does not know. -/
theorem C33_lk_loses_layers :
    let b := flush lkProto NumCodec.standard (LayerWrite.newConfig [97] 0 0)
    let L : Layer := ⟨[97], 4096, 2, [], [], [], 2, 10⟩
    newTile lkProto NumCodec.standard b 100 = .ok ⟨10, [L], [[97]]⟩ ∧
    (render b [L]).map (fun r => newTile lkProto NumCodec.standard r 100) = some (.ok ⟨10, [], []⟩) := by
  decide +kernel

/-! ## C34: termination -/

/-- C34 fails: a four-byte tile with one layer that starts with an unknown field (here tag 6) makes `NewTile` loop for ever —
no number of loop passes is enough. -/
theorem C34_unknown_field_hangs (nc : NumCodec) (n : Nat) : newTile mapboxProto nc [26, 2, 48, 1] n = .hang := by
  cases n with
  | zero => rfl
  | succ n =>
    have hl : newLayer mapboxProto nc [26, 2, 48, 1] (n + 1) false 2 (2 + 2) = .hang := by
      unfold newLayer
      have hr : readTag [26, 2, 48, 1] 2 = some (6, 0, 3) := by decide
      rw [hr, Res.of_some, Res.bind_ok]
      simp only
      rw [whileR_stuck]
      · rfl
      · rfl
      · left
        simp [layerPass, passName, passExtent, passVersion, mapboxProto, whileR]
    unfold newTile
    rw [whileR, if_pos (by decide)]
    have hb : tileBody mapboxProto nc [26, 2, 48, 1] (n + 1) ⟨0, [], []⟩ = .hang := by
      unfold tileBody
      have hr : readTag [26, 2, 48, 1] 0 = some (3, 2, 1) := by decide
      have hv : readVarint [26, 2, 48, 1] 1 = some (2, 2) := by decide +kernel
      simp only
      rw [hr, Res.of_some, Res.bind_ok]
      simp only
      rw [if_pos (by decide), hv, Res.of_some, Res.bind_ok]
      simp only
      rw [if_pos (by decide), hl]
      rfl
    rw [hb]; rfl

/-- C34 fails: a layer whose length is written as a negative number sends `NewTile` back to the start of the tile, again and
again; each round adds a layer. (This does not depend on what `ReadTag` does at the end of the buffer.) -/
theorem C34_negative_length_hangs (nc : NumCodec) (n : Nat) :
    newTile mapboxProto nc [26, 245, 255, 255, 255, 255, 255, 255, 255, 255, 1, 0] n = .hang := by
  set b : Bytes := [26, 245, 255, 255, 255, 255, 255, 255, 255, 255, 1, 0] with hb
  have hr : readTag b 0 = some (3, 2, 1) := by rw [hb]; decide
  have hv : readVarint b 1 = some (-11, 11) := by rw [hb]; decide +kernel
  have hr2 : readTag b 11 = some (0, 0, 12) := by rw [hb]; decide
  refine whileR_forever _ _ (fun st : TS => st.pos = 0) ?_ n (⟨0, [], []⟩ : TS) rfl
  intro st hst
  refine ⟨by rw [hst, hb]; decide, ?_⟩
  unfold tileBody
  rw [hst, hr, Res.of_some, Res.bind_ok]
  simp only
  rw [if_pos (by decide), hv, Res.of_some, Res.bind_ok]
  simp only
  rw [if_pos (by decide)]
  cases n with
  | zero =>
    left
    unfold newLayer
    rw [hr2, Res.of_some, Res.bind_ok]
    rfl
  | succ n =>
    right
    unfold newLayer
    rw [hr2, Res.of_some, Res.bind_ok]
    simp only
    rw [whileR, if_neg (by decide), Res.bind_ok]
    exact ⟨_, rfl, rfl⟩

/-- C34: reading packed words always ends: more loop passes than the model allows give the same result. -/
theorem C34_packed_terminates (b : Bytes) (e : Int) (f : Nat) : ∀ (f' : Nat) (p : Int), (b.length : Int) + 1 - p ≤ f → (b.length : Int) + 1 - p ≤ f' → 0 ≤ p → p ≤ b.length →
    packedLoop b e f p = packedLoop b e f' p := by
  induction f with
  | zero => intro f' p h h' h0 h1; omega
  | succ f ih =>
    intro f' p h h' h0 h1
    cases f' with
    | zero => omega
    | succ f' =>
      rw [packedLoop, packedLoop]
      split
      · cases hr : readUInt64 b p with
        | none => rfl
        | some x =>
          obtain ⟨v, q⟩ := x
          simp only [Option.bind_some]
          have hq : p < q ∧ q ≤ b.length := by
            unfold readUInt64 suffix at hr
            rw [if_pos ⟨h0, h1⟩, Option.bind_some] at hr
            cases hd : decVarint (b.drop p.toNat) with
            | none => simp [hd] at hr
            | some y =>
              obtain ⟨v', m⟩ := y
              simp only [hd, Option.map_some, Option.some.injEq, Prod.mk.injEq] at hr
              have hm : ∀ (s : Bytes) (v m : Nat), decVarint s = some (v, m) → 1 ≤ m ∧ m ≤ s.length := by
                intro s
                induction s with
                | nil => intro v m h; simp [decVarint] at h
                | cons x s ihs =>
                  intro v m h
                  rw [decVarint] at h
                  split at h
                  · simp at h; obtain ⟨_, rfl⟩ := h; simp
                  · cases hs : decVarint s with
                    | none => simp [hs] at h
                    | some z =>
                      obtain ⟨v2, m2⟩ := z
                      simp [hs] at h
                      have := ihs v2 m2 hs
                      simp only [List.length_cons]; omega
              have := hm _ _ _ hd
              rw [List.length_drop] at this
              omega
          rw [ih f' q (by omega) (by omega) (by omega) (by omega)]
      · rfl

/-- C34: the geometry loop of `LoadGeometry` always ends: more passes than one per word give the same result. -/
theorem C34_loadGeometry_terminates (ty : Nat) (geom : List Nat) (extra : Nat) :
    (rdLoop ty geom.length (geom.length + extra) true none [] geom).bind (buildGeom ty) = loadGeometry ty geom := by
  unfold loadGeometry
  rw [rdLoop_fuel ty geom.length (geom.length + extra) geom.length true none [] geom (by omega) le_rfl]

end Verif.Mvt
