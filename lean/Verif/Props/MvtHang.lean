import Verif.Proof.MvtHang
import Verif.Props.MvtWire

/-!
# C34: when the readers of vector tiles return

`NewTile`, `ReadTile`, `Feature` and `LoadGeometry` recover from panics, so each call returns or loops for ever. These theorems say
exactly when it loops for ever (`∀ n, … = .hang`: no number of passes is enough), as long as no length on the way is negative
(`C34_negative_length_hangs` shows what negative lengths do). The field-by-field description of a layer is in Spec/MvtHang.
-/
namespace Verif.Mvt
open Verif.Go Verif.Pbf

/-- C34, a layer from `p` to `e`, with no feature of negative length: reading it loops for ever exactly when, reading field by field, an
unknown tag or the end of the buffer comes before `e`. For `NewTile` (`aw = false`) and `ReadTile` (`aw = true`). -/
theorem C34_layer_hangs_iff (P : Proto) (hP : P = mapboxProto ∨ P = lkProto) (nc : NumCodec) (b : Bytes) (aw : Bool) (p e : Int) {k w : Nat} {q : Int}
    (ht : readTag b p = some (k, w, q)) (hb : ¬ Backward P nc b aw k w q) :
    (∀ n, newLayer P nc b n aw p e = .hang) ↔ Stuck P nc b aw e k w q := by
  have hg : P.Good := by rcases hP with rfl | rfl; exact mapbox_good; exact lk_good
  exact newLayer_hang_iff P nc hg b aw e p ht hb

/-- C34, `NewTile`, with no layer of negative length: it loops for ever exactly when it gets to a layer whose reading loops for ever. -/
theorem C34_newTile_hangs_iff (P : Proto) (nc : NumCodec) (b : Bytes)
    (hneg : ∀ p r e, Arrives P b (fun r e => ∃ n x, newLayer P nc b n false r e = .ok x) p → LayerAt P b p r e → r ≤ e) :
    (∀ n, newTile P nc b n = .hang) ↔
      ∃ p r e, Arrives P b (fun r e => ∃ n x, newLayer P nc b n false r e = .ok x) p ∧ LayerAt P b p r e ∧ ∀ n, newLayer P nc b n false r e = .hang := by
  exact tile_hang_iff P b (fun n r e => newLayer P nc b n false r e) TS.pos (fun st e x => ⟨e, st.layers ++ [x.1], st.names ++ x.2⟩)
    (fun st q => { st with pos := q }) (fun n m r e h => newLayer_le P nc b false r e h) (fun _ _ _ => rfl) (fun _ _ => rfl) ⟨0, [], []⟩ rfl hneg

/-- What `ReadTile` does with one layer. -/
def bulkLayer (P : Proto) (nc : NumCodec) (b : Bytes) (late aw : Bool) (skip : Int) (n : Nat) (r e : Int) : Res (List OutFeature) :=
  (newLayer P nc b n aw r e).bind fun x => bulkFeatures P b late skip n x.1 ⟨0, 0, 0⟩ x.1.features

/-- C34, `ReadTile` and `ReadRawTile`, with no layer of negative length: it loops for ever exactly when it gets to a layer whose reading,
or the reading of whose features, loops for ever. -/
theorem C34_readTile_hangs_iff (P : Proto) (nc : NumCodec) (b : Bytes) (late aw : Bool) (skip : Int)
    (hneg : ∀ p r e, Arrives P b (fun r e => ∃ n x, bulkLayer P nc b late aw skip n r e = .ok x) p → LayerAt P b p r e → r ≤ e) :
    (∀ n, readTile P nc b late aw skip n = .hang) ↔
      ∃ p r e, Arrives P b (fun r e => ∃ n x, bulkLayer P nc b late aw skip n r e = .ok x) p ∧ LayerAt P b p r e ∧
        ∀ n, bulkLayer P nc b late aw skip n r e = .hang := by
  have h := tile_hang_iff P b (fun n r e => bulkLayer P nc b late aw skip n r e) BS.pos (fun st e x => ⟨e, st.outs ++ x⟩)
    (fun st q => { st with pos := q }) (fun n m r e h => Res.Le.bind (newLayer_le P nc b aw r e h) (fun x => bulkFeatures_le P b late skip x.1 h _ _))
    (fun _ _ _ => rfl) (fun _ _ => rfl) ⟨0, []⟩ rfl hneg
  rw [← h]
  have eb : ∀ n, bulkBody P nc b late aw skip n = tileStep P b (fun n r e => bulkLayer P nc b late aw skip n r e) BS.pos (fun st e x => ⟨e, st.outs ++ x⟩)
      (fun st q => { st with pos := q }) n := by
    intro n
    funext st
    unfold bulkBody tileStep bulkLayer
    cases readTag b st.pos with
    | none => rfl
    | some x =>
      obtain ⟨k, w, q⟩ := x
      simp only [Res.of_some, Res.bind_ok]
      by_cases hk : k = P.layers ∧ w = 2
      · rw [if_pos hk, if_pos hk]
        cases readVarint b q with
        | none => rfl
        | some y =>
          obtain ⟨size, r⟩ := y
          simp only [Res.of_some, Res.bind_ok]
          by_cases h0 : size ≠ 0
          · rw [if_pos h0, if_pos h0]
            cases newLayer P nc b n aw r (r + size) <;> rfl
          · rw [if_neg h0, if_neg h0]
      · rw [if_neg hk, if_neg hk]
  refine forall_congr' fun n => ?_
  unfold readTile
  rw [eb n]
  cases whileR (fun st : BS => decide (st.pos < b.length)) (tileStep P b (fun n r e => bulkLayer P nc b late aw skip n r e) BS.pos (fun st e x => ⟨e, st.outs ++ x⟩)
      (fun st q => { st with pos := q }) n) n ⟨0, []⟩ <;> simp [Res.bind]

/-- C34, `Feature` (and the copy of its loop in `ReadTile`, which starts from the values of the previous feature `f0`), with no geometry of
negative length: it loops for ever exactly when it gets to the end of the buffer before the end of the feature. -/
theorem C34_feature_hangs_iff (P : Proto) (hP : P = mapboxProto ∨ P = lkProto) (b : Bytes) (late : Bool) (skip : Int) (l : Layer) (f0 : Feature)
    (p size q : Int) (hs : readVarint b p = some (size, q))
    (hneg : ∀ st, FeatArrives P b skip l ((if late then q else p) + size) ⟨q, f0⟩ st → ∀ p v q', readTag b st.pos = some (P.fGeometry, 2, p) →
      readVarint b p = some (v, q') → 0 ≤ v + skip) :
    (∀ n, readFeatureFrom P b late skip n l f0 p = .hang) ↔
      ∃ st, FeatArrives P b skip l ((if late then q else p) + size) ⟨q, f0⟩ st ∧ (b.length : Int) ≤ st.pos ∧ st.pos < (if late then q else p) + size := by
  have hg : P.Good := by rcases hP with rfl | rfl; exact mapbox_good; exact lk_good
  rw [← featLoop_hang_iff P hg b skip l _ _ hneg]
  refine forall_congr' fun n => ?_
  unfold readFeatureFrom
  rw [hs, Res.of_some, Res.bind_ok]
  simp only
  cases whileR (fun st : FS => decide (st.pos < (if late then q else p) + size)) (fun st => Res.of (featLoopBody P b skip l st)) n ⟨q, f0⟩ <;> simp [Res.bind]

/-- C34: so `Feature` returns for every feature that lies inside the buffer and whose geometries have no negative length. -/
theorem C34_feature_returns (P : Proto) (hP : P = mapboxProto ∨ P = lkProto) (b : Bytes) (late : Bool) (l : Layer)
    (p size q : Int) (hs : readVarint b p = some (size, q)) (hin : q + size ≤ b.length)
    (hneg : ∀ st, FeatArrives P b 0 l ((if late then q else p) + size) ⟨q, ⟨0, [], 0, 0, 0⟩⟩ st → ∀ p v q', readTag b st.pos = some (P.fGeometry, 2, p) →
      readVarint b p = some (v, q') → 0 ≤ v) :
    ∃ n, readFeature P b late n l p ≠ .hang := by
  by_contra h
  push Not at h
  have hq := readVarint_fwd hs
  obtain ⟨st, _, h1, h2⟩ := (C34_feature_hangs_iff P hP b late 0 l ⟨0, [], 0, 0, 0⟩ p size q hs (by simpa using hneg)).mp h
  split at h2 <;> omega

/-- C34 fails for a tile that was cut off: a layer that announces five bytes of which only three are there makes `NewTile` loop for
ever. -/
theorem C34_truncated_hangs (nc : NumCodec) (n : Nat) : newTile mapboxProto nc [26, 5, 10, 1, 97] n = .hang := by
  revert n
  have t0 : readTag [26, 5, 10, 1, 97] 0 = some (3, 2, 1) := by decide
  have v0 : readVarint [26, 5, 10, 1, 97] 1 = some (5, 2) := by decide +kernel
  have t2 : readTag [26, 5, 10, 1, 97] 2 = some (1, 2, 3) := by decide
  have hl : ∀ p r e, LayerAt mapboxProto [26, 5, 10, 1, 97] p r e → r ≤ e := by
    rintro p r e ⟨hp, q, size, ht, hv, _, rfl⟩
    have h1 := (readTag_fwd ht).2 hp
    simp only [List.length_cons, List.length_nil] at hp
    have hc : p = 0 ∨ p = 1 ∨ p = 2 ∨ p = 3 ∨ p = 4 := by omega
    obtain ⟨_, rfl⟩ := h1
    rcases hc with rfl | rfl | rfl | rfl | rfl
    · rw [show (0 : Int) + 1 = 1 from rfl, v0] at hv; simp at hv; omega
    · exact absurd ht (by decide)
    · exact absurd ht (by decide)
    · exact absurd ht (by decide)
    · exact absurd ht (by decide)
  refine (C34_newTile_hangs_iff mapboxProto nc _ (fun p r e _ h => hl p r e h)).mpr ⟨0, 2, 7, .start, ⟨by decide, 1, 5, t0, v0, by decide, by decide⟩, ?_⟩
  have s3 : readString [26, 5, 10, 1, 97] 3 = some ([97], 5) := by decide +kernel
  have nf : nextField mapboxProto nc [26, 5, 10, 1, 97] 1 3 = some (100, 100, 5) := by
    unfold nextField payloadEnd
    rw [if_pos (by decide), s3]; rfl
  refine (C34_layer_hangs_iff mapboxProto (.inl rfl) nc _ false 2 7 t2 ?_).mpr ?_
  · intro h
    cases h with
    | next _ h1 h2 =>
      rw [nf] at h1
      simp only [Option.some.injEq, Prod.mk.injEq] at h1
      obtain ⟨rfl, rfl, rfl⟩ := h1
      cases h2 with
      | next h _ _ => exact absurd h (by unfold KnownTag; decide)
  · exact .next (by decide) (by unfold KnownTag; decide) nf (.here (by decide) (by unfold KnownTag; decide))

/-- C34 fails for `ReadTile` too: a layer with an unknown field makes it loop for ever. -/
theorem C34_readTile_unknown_field_hangs (nc : NumCodec) (late : Bool) (n : Nat) : readTile mapboxProto nc [26, 2, 48, 1] late true 0 n = .hang := by
  revert n
  have t0 : readTag [26, 2, 48, 1] 0 = some (3, 2, 1) := by decide
  have v0 : readVarint [26, 2, 48, 1] 1 = some (2, 2) := by decide +kernel
  have t2 : readTag [26, 2, 48, 1] 2 = some (6, 0, 3) := by decide
  have hl : ∀ p r e, LayerAt mapboxProto [26, 2, 48, 1] p r e → r ≤ e := by
    rintro p r e ⟨hp, q, size, ht, hv, _, rfl⟩
    have h1 := (readTag_fwd ht).2 hp
    simp only [List.length_cons, List.length_nil] at hp
    have hc : p = 0 ∨ p = 1 ∨ p = 2 ∨ p = 3 := by omega
    obtain ⟨_, rfl⟩ := h1
    rcases hc with rfl | rfl | rfl | rfl
    · rw [show (0 : Int) + 1 = 1 from rfl, v0] at hv; simp at hv; omega
    · exact absurd ht (by decide)
    · exact absurd ht (by decide)
    · exact absurd ht (by decide)
  refine (C34_readTile_hangs_iff mapboxProto nc _ late true 0 (fun p r e _ h => hl p r e h)).mpr
    ⟨0, 2, 4, .start, ⟨by decide, 1, 2, t0, v0, by decide, by decide⟩, ?_⟩
  have hh := (C34_layer_hangs_iff mapboxProto (.inl rfl) nc [26, 2, 48, 1] true 2 4 t2 (by
    intro h
    cases h with
    | next h _ _ => exact absurd h (by unfold KnownTag; decide))).mpr (.here (by decide) (by unfold KnownTag; decide))
  intro n
  unfold bulkLayer
  rw [hh n]; rfl

/-- C34 fails for `Feature`: a feature whose length runs past the end of the buffer makes it loop for ever. -/
theorem C34_feature_past_end_hangs (n : Nat) (L : Layer) : readFeature mapboxProto [5, 8, 1] true n L 0 = .hang := by
  revert n
  have v0 : readVarint [5, 8, 1] 0 = some (5, 1) := by decide +kernel
  have t1 : readTag [5, 8, 1] 1 = some (1, 0, 2) := by decide
  have u2 : readUInt64 [5, 8, 1] 2 = some (1, 3) := by decide +kernel
  have hstep : featLoopBody mapboxProto [5, 8, 1] 0 L ⟨1, ⟨0, [], 0, 0, 0⟩⟩ = some ⟨3, ⟨1, [], 0, 0, 0⟩⟩ := by
    unfold featLoopBody
    simp only [t1, Option.bind_some]
    rw [if_pos (by decide), u2]
    simp [mapboxProto, i64]
  refine (C34_feature_hangs_iff mapboxProto (.inl rfl) [5, 8, 1] true 0 L ⟨0, [], 0, 0, 0⟩ 0 5 1 v0 ?_).mpr
    ⟨⟨3, ⟨1, [], 0, 0, 0⟩⟩, .next .start (by decide) hstep, by decide, by decide⟩
  intro st _ p v q ht hv
  exfalso
  unfold readTag suffix at ht
  split at ht
  · simp [mapboxProto] at ht
  · split at ht
    · rename_i h1 h2
      simp only [List.length_cons, List.length_nil] at h1 h2
      have hc : st.pos = 0 ∨ st.pos = 1 ∨ st.pos = 2 := by omega
      rcases hc with h | h | h <;> rw [h] at ht <;> simp [mapboxProto] at ht
    · simp at ht

end Verif.Mvt
