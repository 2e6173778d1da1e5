import Verif.Proof.MvtLayer

/-! # Lemmas about reading written features and tiles -/
namespace Verif.Mvt
open Verif.Go Verif.Pbf

theorem encVarint_length (k x : Nat) (hk : 1 ≤ k) (h : x < 128 ^ k) : (encVarint x).length ≤ k := by
  induction k generalizing x with
  | zero => omega
  | succ k ih =>
    unfold encVarint
    split
    · simp
    · rename_i hx
      rw [List.length_cons]
      have : 1 ≤ k := by
        rcases Nat.eq_zero_or_pos k with rfl | h0
        · simp at h; omega
        · exact h0
      have := ih (x / 128) this (by rw [pow_succ] at h; omega)
      omega

section
variable (P : Proto) (hP : P.Good) (b : Bytes) (skip : Int) (l : Layer)
include hP

theorem featStep_id (st : FS) (v : Nat) (s : Bytes) (hv : v < 18446744073709551616) (h : At b st.pos (encUInt P.fID v ++ s)) :
    featLoopBody P b skip l st = some ⟨st.pos + (encUInt P.fID v).length, { st.feat with id := i64 v }⟩ := by
  have hd := hP.feat
  simp only [List.nodup_cons, List.mem_cons, List.not_mem_nil, or_false, not_or, List.nodup_nil, and_true, not_false_eq_true] at hd
  rw [encUInt_app] at h
  have e1 : tagByte P.fID 0 / 8 = P.fID := by unfold tagByte; omega
  have e2 : tagByte P.fID 0 % 8 = 0 := by unfold tagByte; omega
  have e3 : readUInt64 b (st.pos + 1) = some (v, st.pos + 1 + (encVarint v).length) := readUInt64_at h.adv1 hv
  clear hv
  unfold featLoopBody
  rw [readTag_at h, Option.bind_some]
  simp only [e1, e2]
  rw [e3]
  generalize i64 = f
  rw [if_pos ⟨trivial, trivial⟩]
  rw [Option.map_some, Option.bind_some]
  rw [if_neg (by intro ⟨_, h⟩; exact absurd h (by decide)), Option.bind_some, if_neg (by intro ⟨h, _⟩; exact hd.1.2.1 h), Option.bind_some,
    if_neg (by intro ⟨_, h⟩; exact absurd h (by decide))]
  simp only [encUInt, List.length_cons]
  congr 2
  push_cast; ring

theorem featStep_tags (st : FS) (ws : List Nat) (r : List (Bytes × Val)) (s : Bytes) (hw : ∀ w ∈ ws, w < 4294967296)
    (hl : (ws.flatMap encVarint).length < 9223372036854775808) (hr : resolveTags l.keys l.values ws = some r)
    (h : At b st.pos (encPacked P.fTags ws ++ s)) :
    featLoopBody P b skip l st = some ⟨st.pos + (encPacked P.fTags ws).length, { st.feat with props := st.feat.props ++ r }⟩ := by
  have hd := hP.feat
  simp only [List.nodup_cons, List.mem_cons, List.not_mem_nil, or_false, not_or, List.nodup_nil, and_true, not_false_eq_true] at hd
  rw [encPacked, encBytes_app] at h
  have e1 : tagByte P.fTags 2 / 8 = P.fTags := by unfold tagByte; omega
  have e2 : tagByte P.fTags 2 % 8 = 2 := by unfold tagByte; omega
  unfold featLoopBody
  rw [readTag_at h, Option.bind_some]
  simp only [e1, e2]
  rw [if_neg (by simp), Option.bind_some, if_pos (by simp), readPacked_at h.adv1 hw hl]
  simp only [Option.bind_some, hr, Option.map_some]
  simp only [hd.2.1.2, false_and, if_false, show ¬ ((2:Nat) = 0) by decide, and_false, Option.bind_some]
  simp only [encPacked, encBytes, List.length_append, List.length_cons]
  congr 2
  push_cast; ring

theorem featStep_type (st : FS) (v : Nat) (s : Bytes) (hv : v < 128) (h : At b st.pos (encUInt P.fType v ++ s)) :
    featLoopBody P b skip l st = some ⟨st.pos + (encUInt P.fType v).length, { st.feat with geomInt := v }⟩ := by
  have hd := hP.feat
  simp only [List.nodup_cons, List.mem_cons, List.not_mem_nil, or_false, not_or, List.nodup_nil, and_true, not_false_eq_true] at hd
  rw [encUInt_app] at h
  have e1 : tagByte P.fType 0 / 8 = P.fType := by unfold tagByte; omega
  have e2 : tagByte P.fType 0 % 8 = 0 := by unfold tagByte; omega
  unfold featLoopBody
  rw [readTag_at h, Option.bind_some]
  simp only [e1, e2]
  rw [if_neg (by intro ⟨h, _⟩; exact hd.1.2.1 h.symm), Option.bind_some, if_neg (by simp), Option.bind_some, if_pos (by simp), varintFirst_at h.adv1 hv]
  simp only [Option.map_some, Option.bind_some]
  simp [encUInt]
  omega

theorem featStep_geom (st : FS) (ws : List Nat) (s : Bytes)
    (hl : (ws.flatMap encVarint).length < 9223372036854775808)
    (h : At b st.pos (encPacked P.fGeometry ws ++ s)) :
    featLoopBody P b skip l st = some ⟨st.pos + (encPacked P.fGeometry ws).length + skip, { st.feat with geometryPos := st.pos + 1 }⟩ := by
  have hd := hP.feat
  simp only [List.nodup_cons, List.mem_cons, List.not_mem_nil, or_false, not_or, List.nodup_nil, and_true, not_false_eq_true] at hd
  rw [encPacked, encBytes_app] at h
  have e1 : tagByte P.fGeometry 2 / 8 = P.fGeometry := by unfold tagByte; omega
  have e2 : tagByte P.fGeometry 2 % 8 = 2 := by unfold tagByte; omega
  unfold featLoopBody
  rw [readTag_at h, Option.bind_some]
  simp only [e1, e2]
  rw [if_neg (by simp), Option.bind_some, if_neg (by intro ⟨h, _⟩; exact hd.2.1.2 h.symm), Option.bind_some, if_neg (by simp), Option.bind_some,
    if_pos (by simp), readVarint_at h.adv1 hl]
  simp only [encPacked, encBytes, List.length_append, List.length_cons, Option.map_some]
  congr 2
  push_cast; ring

end

/-- One more pass (`seg` not empty) or none (`seg` empty): the loop state moves from `st` to `st'`. -/
theorem whileR_opt {S : Type} (cond : S → Bool) (body : S → Res S) (st st' : S)
    (h : (cond st = true ∧ body st = .ok st') ∨ st' = st) :
    ∃ k ≤ 1, ∀ n, whileR cond body (n + k) st = whileR cond body n st' := by
  rcases h with ⟨h1, h2⟩ | rfl
  · exact ⟨1, le_rfl, fun n => by rw [whileR, if_pos h1, h2, Res.bind_ok]⟩
  · exact ⟨0, by omega, fun n => rfl⟩

/-- A written feature whose fields are in range. -/
structure FeatOk (P : Proto) (f : WFeature) : Prop where
  id : ∀ i ∈ f.id, i < 18446744073709551616
  tags : ∀ t ∈ f.tags, t < 4294967296
  type : ∀ t ∈ f.type, t < 128
  geom : ∀ g ∈ f.geometry, ∀ w ∈ g, w < 4294967296
  fits : Fits (encFeature P f)

/-- Where the geometry of a feature written at `p` is read. -/
def geomPosOf (P : Proto) (p : Int) (f : WFeature) (gp0 : Int) : Int :=
  match f.geometry with
  | some _ => p + (encVarint (encFeature P f).length).length + (match f.id with | some i => encUInt P.fID i | none => []).length +
      (if f.tags = [] then [] else encPacked P.fTags f.tags).length + (match f.type with | some t => encUInt P.fType t | none => []).length + 1
  | none => gp0

/-- Reading a written feature. Under the evaluation order `late = false` the last field must be longer than the length
prefix, which a geometry of at least eight words guarantees. -/
theorem readFrom_at (P : Proto) (hP : P.Good) (b : Bytes) (late : Bool) (skip : Int) (hskip : 0 ≤ skip) (n : Nat) (l : Layer) (f0 : Feature) (hf0 : f0.props = []) (p : Int) (f : WFeature) (hf : FeatOk P f)
    (r : List (Bytes × Val)) (hr : resolveTags l.keys l.values f.tags = some r)
    (hlate : late = true ∨ ∃ g, f.geometry = some g ∧ 8 ≤ g.length) (hn : 5 ≤ n) (h : FeatAt b p (encFeature P f)) :
    readFeatureFrom P b late skip n l f0 p =
      .ok ⟨((f.id.map (fun i : Nat => i64 (i : Int))).getD f0.id), r, geomPosOf P p f f0.geometryPos, f.type.getD f0.geomInt, l.extent⟩ ∧
      ∀ g, f.geometry = some g → (readPacked b (geomPosOf P p f f0.geometryPos)).map (·.1) = some g ∧ 0 < geomPosOf P p f f0.geometryPos := by
  obtain ⟨i0, pr0, gp0, gi0, ex0⟩ := f0
  simp only at hf0
  subst hf0
  simp only
  obtain ⟨I, hI⟩ : ∃ I, (f.id.map (fun i : Nat => i64 (i : Int))).getD i0 = I := ⟨_, rfl⟩
  rw [hI]
  obtain ⟨s, h⟩ := h
  have hfit := hf.fits
  unfold Fits at hfit
  unfold readFeatureFrom
  rw [readVarint_at h hfit, Res.of_some, Res.bind_ok]
  simp only
  have hq := h.adv
  set q := p + (encVarint (encFeature P f).length).length with hqdef
  set E := (if late = true then q else p) + ((encFeature P f).length : Int) with hE
  have hv9 : (encVarint (encFeature P f).length).length ≤ 9 :=
    encVarint_length 9 _ (by decide) (lt_of_lt_of_le hfit (by norm_num))
  let A : Bytes := match f.id with | some i => encUInt P.fID i | none => []
  let B : Bytes := if f.tags = [] then [] else encPacked P.fTags f.tags
  let C : Bytes := match f.type with | some t => encUInt P.fType t | none => []
  let D : Bytes := match f.geometry with | some g => encPacked P.fGeometry g | none => []
  have hdef : encFeature P f = A ++ (B ++ (C ++ D)) := by
    show A ++ B ++ C ++ D = _
    simp only [List.append_assoc]
  have hlen : (encFeature P f).length = A.length + B.length + C.length + D.length := by rw [hdef]; simp; omega
  have hEle : E ≤ q + (encFeature P f).length := by
    rw [hE]; split <;> omega
  have hEge : ∀ x : Nat, 0 < x → D.length ≤ x → q + ((encFeature P f).length : Int) - x < E := by
    intro x hx hD
    rcases hlate with h1 | ⟨g, hg, hg8⟩
    · rw [hE, if_pos h1]; omega
    · have hDl : 10 ≤ D.length := by
        have h1 : D = encPacked P.fGeometry g := by simp only [D, hg]
        have h2 := flatMap_enc_length g
        have h3 := List.length_pos_iff.mpr (encVarint_ne_nil (g.flatMap encVarint).length)
        rw [h1, encPacked, encBytes, List.length_append, List.length_cons]
        omega
      rw [hE]; split <;> omega
  rw [hdef, List.append_assoc, List.append_assoc, List.append_assoc] at hq
  have hfA : ∀ x ∈ [A, B, C, D], x.length < 9223372036854775808 := by
    intro x hx; simp at hx; rcases hx with rfl | rfl | rfl | rfl <;> omega
  let cond : FS → Bool := fun st => decide (st.pos < E)
  let body : FS → Res FS := fun st => Res.of (featLoopBody P b skip l st)
  let st0 : FS := ⟨q, ⟨i0, [], gp0, gi0, ex0⟩⟩
  let st1 : FS := ⟨q + A.length, { st0.feat with id := I }⟩
  let st2 : FS := ⟨st1.pos + B.length, { st1.feat with props := r }⟩
  let st3 : FS := ⟨st2.pos + C.length, { st2.feat with geomInt := f.type.getD gi0 }⟩
  let st4 : FS := ⟨st3.pos + D.length + (match f.geometry with | some _ => skip | none => 0), { st3.feat with geometryPos := match f.geometry with | some _ => st3.pos + 1 | none => gp0 }⟩
  have hA : At b st0.pos (A ++ (B ++ (C ++ (D ++ s)))) := hq
  have hB : At b st1.pos (B ++ (C ++ (D ++ s))) := hA.adv
  have hC : At b st2.pos (C ++ (D ++ s)) := hB.adv
  have hD : At b st3.pos (D ++ s) := hC.adv
  have s1 : (cond st0 = true ∧ body st0 = .ok st1) ∨ st1 = st0 := by
    cases hid : f.id with
    | none => rw [hid] at hI; simp at hI; right; simp [st1, st0, A, hid, ← hI]
    | some i =>
      left
      have hAe : A = encUInt P.fID i := by simp only [A, hid]
      have hst1 : st1 = ⟨st0.pos + (encUInt P.fID i).length, { st0.feat with id := I }⟩ := by rw [← hAe]
      rw [hAe] at hA
      refine ⟨?_, ?_⟩
      · have := hEge (A.length + B.length + C.length + D.length) (by rw [hAe]; simp [encUInt]) (by omega)
        simp only [cond, decide_eq_true_eq, st0]; omega
      · simp only [body]
        rw [featStep_id P hP b skip l st0 i _ (hf.id i (by simp [hid])) hA]
        have hz : i64 (i : Int) = I := by rw [← hI, hid, Option.map_some, Option.getD_some]
        rw [hz, Res.of_some, hst1]
  have s2 : (cond st1 = true ∧ body st1 = .ok st2) ∨ st2 = st1 := by
    by_cases ht : f.tags = []
    · right
      rw [ht] at hr
      simp [resolveTags] at hr
      simp [st2, B, ht, ← hr, st1, st0]
    · left
      have hBe : B = encPacked P.fTags f.tags := by simp only [B, ht, if_false]
      have hBf := hfA B (by simp)
      rw [hBe] at hB
      refine ⟨?_, ?_⟩
      · have := hEge (B.length + C.length + D.length) (by rw [hBe]; simp [encPacked, encBytes]) (by omega)
        simp only [cond, decide_eq_true_eq, st1]; omega
      · simp only [body]
        have hl' : (f.tags.flatMap encVarint).length < 9223372036854775808 := by
          rw [hBe, encPacked] at hBf
          exact (encBytes_length _ _).trans hBf
        rw [featStep_tags P hP b skip l st1 f.tags r _ hf.tags hl' hr hB]
        simp [st2, hBe, st1, st0]
  have s3 : (cond st2 = true ∧ body st2 = .ok st3) ∨ st3 = st2 := by
    cases hid : f.type with
    | none => right; simp [st3, st2, C, hid, st1, st0]
    | some i =>
      left
      have hCe : C = encUInt P.fType i := by simp only [C, hid]
      rw [hCe] at hC
      refine ⟨?_, ?_⟩
      · have := hEge (C.length + D.length) (by rw [hCe]; simp [encUInt]) (by omega)
        simp only [cond, decide_eq_true_eq, st2, st1]; omega
      · simp only [body]
        rw [featStep_type P hP b skip l st2 i _ (hf.type i (by simp [hid])) hC]
        simp [st3, hid, hCe]
  have s4 : (cond st3 = true ∧ body st3 = .ok st4) ∨ st4 = st3 := by
    cases hid : f.geometry with
    | none => right; simp [st4, st3, D, hid, st2, st1, st0]
    | some g =>
      left
      have hDe : D = encPacked P.fGeometry g := by simp only [D, hid]
      have hDf := hfA D (by simp)
      rw [hDe] at hD
      refine ⟨?_, ?_⟩
      · have := hEge D.length (by rw [hDe]; simp [encPacked, encBytes]) le_rfl
        simp only [cond, decide_eq_true_eq, st3, st2, st1]; omega
      · simp only [body]
        have hl' : (g.flatMap encVarint).length < 9223372036854775808 := by
          rw [hDe, encPacked] at hDf
          exact (encBytes_length _ _).trans hDf
        rw [featStep_geom P hP b skip l st3 g _ hl' hD]
        simp [st4, hid, hDe]
  obtain ⟨k1, hk1, e1⟩ := whileR_opt cond body st0 st1 s1
  obtain ⟨k2, hk2, e2⟩ := whileR_opt cond body st1 st2 s2
  obtain ⟨k3, hk3, e3⟩ := whileR_opt cond body st2 st3 s3
  obtain ⟨k4, hk4, e4⟩ := whileR_opt cond body st3 st4 s4
  obtain ⟨m, rfl⟩ : ∃ m, n = m + 1 + k4 + k3 + k2 + k1 := ⟨n - k1 - k2 - k3 - k4 - 1, by omega⟩
  have hstop : cond st4 = false := by
    have hs0 : 0 ≤ (match f.geometry with | some _ => skip | none => (0 : Int)) := by split <;> omega
    simp only [cond, decide_eq_false_iff_not, st4, st3, st2, st1]
    omega
  have hgp : geomPosOf P p f gp0 = st4.feat.geometryPos := rfl
  rw [hgp]
  refine ⟨?_, ?_⟩
  · have : whileR cond body (m + 1 + k4 + k3 + k2 + k1) st0 = .ok st4 := by
      rw [e1, e2, e3, e4, whileR, hstop]; rfl
    show (whileR cond body _ st0).bind _ = _
    rw [this, Res.bind_ok]
  · intro g hid
    have hDe : D = encPacked P.fGeometry g := by simp only [D, hid]
    have hDf := hfA D (by simp)
    have hnn := hD.nonneg
    rw [hDe, encPacked] at hDf
    rw [hDe, encPacked, encBytes_app] at hD
    have : st4.feat.geometryPos = st3.pos + 1 := by simp [st4, hid]
    rw [this, readPacked_at hD.adv1 (hf.geom g (by simp [hid])) ((encBytes_length _ _).trans hDf)]
    exact ⟨rfl, by omega⟩

/-! ### Tiles -/

/-- Reading a sequence of written layers. -/
theorem newTile_at (P : Proto) (nc : NumCodec) (hP : P.Good) (hnc : nc.Law) (ls : List LayerWrite) (hl : ∀ l ∈ ls, LayerOk P nc l)
    (n : Nat) (hn : (ls.flatMap (flush P nc)).length + 2 < n) :
    ∃ out, newTile P nc (ls.flatMap (flush P nc)) n = .ok ⟨(ls.flatMap (flush P nc)).length, out,
        (ls.filter (fun l => l.name.length > 0)).map (·.name)⟩ ∧
      List.Forall₂ (fun (l : LayerWrite) (o : Layer) => ∃ ps p s, o = readBack l ps p (p + (layerBody P nc l).length) ∧
        At (ls.flatMap (flush P nc)) p (layerBody P nc l ++ s) ∧ List.Forall₂ (FeatAt (ls.flatMap (flush P nc))) ps l.features) ls out := by
  set b := ls.flatMap (flush P nc) with hb
  let R : LayerWrite → Layer → Prop := fun l o => ∃ ps p s, o = readBack l ps p (p + (layerBody P nc l).length) ∧
        At b p (layerBody P nc l ++ s) ∧ List.Forall₂ (FeatAt b) ps l.features
  have hll : ls.length ≤ b.length := flatMap_length_ge _ _ (fun x _ => by simp [flush, encBytes])
  have := whileR_list (fun st : TS => decide (st.pos < b.length)) (tileBody P nc b n)
    (fun xs st => ∃ done, ls = done ++ xs ∧ At b st.pos (xs.flatMap (flush P nc)) ∧ List.Forall₂ R done st.layers ∧
      st.names = (done.filter (fun l => l.name.length > 0)).map (·.name))
    (by
      rintro l xs st ⟨done, hd, hat, hfa, hnm⟩
      have hm : l ∈ ls := by rw [hd]; simp
      rw [List.flatMap_cons, flush, encBytes_app] at hat
      have hfit := (hl l hm).body
      have hlb : (layerBody P nc l).length < b.length := by
        have h1 := flatMap_length_mem (flush P nc) ls l hm
        have h2 := encBytes_length P.layers (layerBody P nc l)
        unfold flush at h1
        exact lt_of_lt_of_le h2 h1
      have hpos := hat.pos
      simp only [List.length_cons] at hpos
      refine ⟨by simp only [decide_eq_true_eq]; omega, ?_⟩
      have h1 := hat.adv1
      obtain ⟨ps, hps, hnl⟩ := newLayer_at P nc hP hnc b l (hl l hm) _ _ h1.adv n (by omega)
      have hsz : ((layerBody P nc l).length : Int) ≠ 0 := by
        have := layerBody_length P nc l
        have h2 : 1 ≤ (encUInt P.version l.version).length := by simp [encUInt]
        omega
      refine ⟨⟨st.pos + 1 + ((encVarint (layerBody P nc l).length).length : Int) + (layerBody P nc l).length,
        st.layers ++ [readBack l ps (st.pos + 1 + ((encVarint (layerBody P nc l).length).length : Int))
          (st.pos + 1 + ((encVarint (layerBody P nc l).length).length : Int) + (layerBody P nc l).length)],
        st.names ++ (if l.name.length > 0 then [l.name] else [])⟩, ?_, done ++ [l], by simp [hd], ?_, ?_, ?_⟩
      · unfold tileBody
        rw [readTag_at hat, Res.of_some, Res.bind_ok]
        have e1 : tagByte P.layers 2 / 8 = P.layers := by unfold tagByte; omega
        have e2 : tagByte P.layers 2 % 8 = 2 := by unfold tagByte; omega
        simp only [e1, e2]
        rw [if_pos ⟨trivial, trivial⟩, readVarint_at h1 hfit, Res.of_some, Res.bind_ok]
        simp only
        rw [if_pos hsz, hnl false, Res.bind_ok]
      · exact At.adv h1.adv
      · exact List.rel_append hfa (.cons ⟨ps, _, _, rfl, h1.adv, hps⟩ .nil)
      · simp only [hnm, List.filter_append, List.map_append]
        congr 1
        by_cases h0 : l.name.length > 0
        · simp [h0]
        · simp [h0])
    (by
      rintro st ⟨done, hd, hat, _⟩
      have := hat.pos
      simp at this
      simp; omega)
    ls n ⟨0, [], []⟩ (by omega) ⟨[], rfl, At.zero b, .nil, rfl⟩
  obtain ⟨st, e, done, hd, hat, hfa, hnm⟩ := this
  have hd' : done = ls := by simpa using hd.symm
  subst hd'
  refine ⟨st.layers, ?_, hfa⟩
  unfold newTile
  rw [e]
  have hp := hat.pos
  simp at hp
  congr 1
  obtain ⟨p, ly, nm⟩ := st
  simp at hp hnm ⊢
  exact ⟨hp, hnm⟩

end Verif.Mvt
