import Verif.Model.MvtLayer
import Verif.Spec.MvtLayer
import Verif.Proof.Pbf
import Mathlib.Data.List.Forall2

/-! # Lemmas about reading written layers -/
namespace Verif.Mvt
open Verif.Go Verif.Pbf

@[simp] theorem Res.of_some {α : Type} (a : α) : Res.of (some a) = .ok a := rfl
@[simp] theorem Res.bind_ok {α β : Type} (a : α) (f : α → Res β) : (Res.ok a).bind f = f a := rfl
@[simp] theorem Res.bind_panic {α β : Type} (f : α → Res β) : (Res.panic : Res α).bind f = .panic := rfl
@[simp] theorem Res.bind_hang {α β : Type} (f : α → Res β) : (Res.hang : Res α).bind f = .hang := rfl

theorem encBytes_app (t : Nat) (s r : Bytes) : encBytes t s ++ r = tagByte t 2 :: (encVarint s.length ++ (s ++ r)) := by
  simp [encBytes]

theorem encUInt_app (t v : Nat) (r : Bytes) : encUInt t v ++ r = tagByte t 0 :: (encVarint v ++ r) := by
  simp [encUInt]

/-- What the proofs need of a tag scheme: tags fit in one byte and differ. -/
structure Proto.Good (P : Proto) : Prop where
  small : P.layers < 16 ∧ P.version < 16 ∧ P.name < 16 ∧ P.features < 16 ∧ P.keys < 16 ∧ P.values < 16 ∧ P.extent < 16 ∧
    P.fID < 16 ∧ P.fTags < 16 ∧ P.fType < 16 ∧ P.fGeometry < 16
  layer : [P.name, P.features, P.keys, P.values, P.extent, P.version].Nodup
  feat : [P.fID, P.fTags, P.fType, P.fGeometry].Nodup
  val : [P.vString, P.vFloat, P.vDouble, P.vInt, P.vUInt, P.vSInt, P.vBool].Nodup

theorem mapbox_good : mapboxProto.Good := ⟨by decide, by decide, by decide, by decide⟩
theorem lk_good : lkProto.Good := ⟨by decide, by decide, by decide, by decide⟩

/-- The current tag of `st` is the head of `s`, and the rest of `s` follows `st.pos`. -/
def Rdy (b : Bytes) (st : LS) (s : Bytes) : Prop :=
  match s with
  | [] => st.key = 100 ∧ st.wire = 100 ∧ At b st.pos []
  | x :: s => st.key = x / 8 ∧ st.wire = x % 8 ∧ At b st.pos s

theorem nextTag_at {b : Bytes} (st : LS) {q : Int} {s : Bytes} (l : Layer) (h : At b q s) :
    ∃ st', nextTag b st q l = some st' ∧ Rdy b st' s ∧ st'.layer = l ∧ st'.names = st.names := by
  unfold nextTag
  cases s with
  | nil => rw [readTag_end h]; exact ⟨_, rfl, ⟨rfl, rfl, h⟩, rfl, rfl⟩
  | cons x s => rw [readTag_at h]; exact ⟨_, rfl, ⟨rfl, rfl, h.adv1⟩, rfl, rfl⟩

theorem Rdy.tag {b : Bytes} {st : LS} {t w : Nat} {s : Bytes} (h : Rdy b st (tagByte t w :: s)) (hw : w < 8) :
    st.key = t ∧ st.wire = w ∧ At b st.pos s := by
  obtain ⟨h1, h2, h3⟩ := h
  unfold tagByte at h1 h2
  exact ⟨by omega, by omega, h3⟩

/-- `s` does not start with tag `t` of wire type `w`. -/
def NoTag (s : Bytes) (t w : Nat) : Prop :=
  match s with
  | [] => t < 100
  | x :: _ => ¬ (x / 8 = t ∧ x % 8 = w)

theorem Rdy.no {b : Bytes} {st : LS} {s : Bytes} {t w : Nat} (h : Rdy b st s) (hn : NoTag s t w) : ¬ (st.key = t ∧ st.wire = w) := by
  cases s with
  | nil => obtain ⟨h1, h2, h3⟩ := h; unfold NoTag at hn; simp at hn; omega
  | cons x s =>
    obtain ⟨h1, h2, h3⟩ := h
    rw [h1, h2]; exact hn

theorem noTag_tagByte (t' w' t w : Nat) (s : Bytes) (hw : w' < 8) (h : ¬ (t' = t ∧ w' = w)) : NoTag (tagByte t' w' :: s) t w := by
  unfold NoTag tagByte
  simp only
  intro ⟨h1, h2⟩
  exact h ⟨by omega, by omega⟩

theorem noTag_flatMap {α : Type} (t' w' t w : Nat) (g : α → Bytes) (xs : List α) (s : Bytes) (hw : w' < 8) (h : ¬ (t' = t ∧ w' = w))
    (hg : ∀ x ∈ xs, ∃ r, g x = tagByte t' w' :: r) (hs : NoTag s t w) : NoTag (xs.flatMap g ++ s) t w := by
  cases xs with
  | nil => simpa using hs
  | cons x xs =>
    obtain ⟨r, hr⟩ := hg x (by simp)
    rw [List.flatMap_cons, hr, List.cons_append, List.cons_append]
    exact noTag_tagByte _ _ _ _ _ hw h

/-- A loop over a list of encoded entries. `step` is one pass over one entry. -/
theorem whileR_list {α S : Type} (cond : S → Bool) (body : S → Res S) (inv : List α → S → Prop)
    (hstep : ∀ x xs s, inv (x :: xs) s → cond s = true ∧ ∃ s', body s = .ok s' ∧ inv xs s')
    (hend : ∀ s, inv [] s → cond s = false) :
    ∀ (xs : List α) (n : Nat) (s : S), xs.length < n → inv xs s → ∃ s', whileR cond body n s = .ok s' ∧ inv [] s' := by
  intro xs
  induction xs with
  | nil =>
    intro n s hn h
    cases n with
    | zero => omega
    | succ n => exact ⟨s, by simp [whileR, hend s h], h⟩
  | cons x xs ih =>
    intro n s hn h
    cases n with
    | zero => omega
    | succ n =>
      obtain ⟨hc, s1, hb, hi⟩ := hstep x xs s h
      obtain ⟨s2, h2, h3⟩ := ih n s1 (by simpa using hn) hi
      exact ⟨s2, by rw [whileR, if_pos hc, hb]; exact h2, h3⟩

/-- Byte strings whose length a Go int can hold. -/
def Fits (s : Bytes) : Prop := s.length < 9223372036854775808

/-- The bytes of feature `f` start (after their length) at `p`. -/
def FeatAt (b : Bytes) (p : Int) (f : Bytes) : Prop := ∃ s, At b p (encVarint f.length ++ (f ++ s))

theorem featLoop_at (P : Proto) (b : Bytes) (feats : List Bytes) (s : Bytes) (n : Nat) (st : LS)
    (hn : feats.length < n) (hno : NoTag s P.features 2) (hfit : ∀ f ∈ feats, Fits f)
    (h : Rdy b st (feats.flatMap (encBytes P.features) ++ s)) :
    ∃ st' ps, whileR (fun st : LS => decide (st.key = P.features ∧ st.wire = 2)) (fun st => Res.of (featBody b st)) n st = .ok st' ∧
      Rdy b st' s ∧ st'.names = st.names ∧ st'.layer = { st.layer with features := st.layer.features ++ ps } ∧
      List.Forall₂ (FeatAt b) ps feats := by
  have := whileR_list (fun st : LS => decide (st.key = P.features ∧ st.wire = 2)) (fun st => Res.of (featBody b st))
    (fun xs st' => Rdy b st' (xs.flatMap (encBytes P.features) ++ s) ∧ st'.names = st.names ∧
      ∃ done ps, feats = done ++ xs ∧ st'.layer = { st.layer with features := st.layer.features ++ ps } ∧ List.Forall₂ (FeatAt b) ps done)
    (by
      rintro f fs st' ⟨hr, hnm, done, ps, hd, hl, hf⟩
      rw [List.flatMap_cons, List.append_assoc, encBytes_app] at hr
      obtain ⟨h1, h2, h3⟩ := hr.tag (by decide)
      refine ⟨by simp [h1, h2], ?_⟩
      have hff : Fits f := hfit f (by rw [hd]; simp)
      obtain ⟨st'', e1, e2, e3, e4⟩ := nextTag_at st' (q := st'.pos + (encVarint f.length).length + f.length)
        { st'.layer with features := st'.layer.features ++ [st'.pos] } (At.adv h3.adv)
      refine ⟨st'', ?_, e2, e4.trans hnm, done ++ [f], ps ++ [st'.pos], by simp [hd], ?_, ?_⟩
      · simp only [featBody]
        rw [readVarint_at h3 hff]
        simp only [Option.bind_some]
        rw [e1]; rfl
      · rw [e3, hl]; simp
      · exact List.rel_append hf (.cons ⟨_, h3⟩ .nil))
    (by
      rintro st' ⟨hr, _⟩
      have hr' : Rdy b st' s := by simpa using hr
      simpa using hr'.no hno)
    feats n st hn ⟨h, rfl, [], [], rfl, by simp, .nil⟩
  obtain ⟨st', e, hr, hnm, done, ps, hd, hl, hf⟩ := this
  refine ⟨st', ps, e, by simpa using hr, hnm, hl, ?_⟩
  rw [hd]; simpa using hf

theorem keyLoop_at (P : Proto) (b : Bytes) (keys : List Bytes) (s : Bytes) (n : Nat) (st : LS)
    (hn : keys.length < n) (hno : NoTag s P.keys 2) (hfit : ∀ f ∈ keys, Fits f)
    (h : Rdy b st (keys.flatMap (encBytes P.keys) ++ s)) :
    ∃ st', whileR (fun st : LS => decide (st.key = P.keys ∧ st.wire = 2)) (fun st => Res.of (keyBody b st)) n st = .ok st' ∧
      Rdy b st' s ∧ st'.names = st.names ∧ st'.layer = { st.layer with keys := st.layer.keys ++ keys } := by
  have := whileR_list (fun st : LS => decide (st.key = P.keys ∧ st.wire = 2)) (fun st => Res.of (keyBody b st))
    (fun xs st' => Rdy b st' (xs.flatMap (encBytes P.keys) ++ s) ∧ st'.names = st.names ∧
      ∃ done, keys = done ++ xs ∧ st'.layer = { st.layer with keys := st.layer.keys ++ done })
    (by
      rintro f fs st' ⟨hr, hnm, done, hd, hl⟩
      rw [List.flatMap_cons, List.append_assoc, encBytes_app] at hr
      obtain ⟨h1, h2, h3⟩ := hr.tag (by decide)
      refine ⟨by simp [h1, h2], ?_⟩
      have hff : Fits f := hfit f (by rw [hd]; simp)
      obtain ⟨st'', e1, e2, e3, e4⟩ := nextTag_at st' (q := st'.pos + (encVarint f.length).length + f.length)
        { st'.layer with keys := st'.layer.keys ++ [f] } (At.adv h3.adv)
      refine ⟨st'', ?_, e2, e4.trans hnm, done ++ [f], by simp [hd], ?_⟩
      · simp only [keyBody]
        rw [readString_at h3 hff]
        simp only [Option.bind_some]
        rw [e1]; rfl
      · rw [e3, hl]; simp)
    (by
      rintro st' ⟨hr, _⟩
      have hr' : Rdy b st' s := by simpa using hr
      simpa using hr'.no hno)
    keys n st hn ⟨h, rfl, [], rfl, by simp⟩
  obtain ⟨st', e, hr, hnm, done, hd, hl⟩ := this
  refine ⟨st', e, by simpa using hr, hnm, ?_⟩
  rw [hl, hd]; simp

theorem readVal_at (P : Proto) (nc : NumCodec) (hP : P.Good) (hnc : nc.Law) (b : Bytes) (p : Int) (v : GoVal) (s : Bytes)
    (hv : ValOk v) (h : At b p ((writeValue P nc v).2 ++ s)) :
    readVal P nc b (writeValue P nc v).1 p = some (some (stored v), p + (writeValue P nc v).2.length) := by
  have hd := hP.val
  simp only [List.nodup_cons, List.mem_cons, List.not_mem_nil, or_false, not_or, List.nodup_nil, and_true, not_false_eq_true] at hd
  obtain ⟨⟨a1, a2, a3, a4, a5, a6⟩, ⟨b1, b2, b3, b4, b5⟩, ⟨c1, c2, c3, c4⟩, ⟨d1, d2, d3⟩, ⟨e1, e2⟩, f1⟩ := hd
  have estr : ∀ t : Bytes, (if t.length > 0 then encVarint t.length ++ t else encVarint 0) = encVarint t.length ++ t := by
    intro t; cases t <;> simp
  cases v with
  | str t =>
    simp only [writeValue, estr, List.append_assoc] at h ⊢
    unfold readVal
    rw [if_pos rfl, readString_at h (by unfold ValOk at hv; omega)]
    simp [stored, add_assoc]
  | other _ =>
    simp only [writeValue] at h ⊢
    unfold readVal
    rw [if_pos rfl, readString_at (t := []) (by simpa using h) (by simp)]
    simp [stored]
  | unhashable =>
    simp only [writeValue] at h ⊢
    unfold readVal
    rw [if_pos rfl, readString_at (t := []) (by simpa using h) (by simp)]
    simp [stored]
  | f32 x =>
    simp only [writeValue] at h ⊢
    unfold readVal
    rw [if_neg (Ne.symm a1), if_pos rfl]
    simp [h.suffix, hnc.f32 x s hv, stored]
  | f64 x =>
    simp only [writeValue] at h ⊢
    unfold readVal
    rw [if_neg (Ne.symm a2), if_neg (Ne.symm b1), if_pos rfl]
    simp [h.suffix, hnc.f64 x s hv, stored]
  | int k x =>
    simp only [writeValue] at h ⊢
    unfold readVal
    rw [if_neg (Ne.symm a3), if_neg (Ne.symm b2), if_neg (Ne.symm c1), if_pos rfl]
    simp [h.suffix, hnc.int x s hv, stored]
  | uint k x =>
    simp only [writeValue] at h ⊢
    unfold readVal
    rw [if_neg (Ne.symm a4), if_neg (Ne.symm b3), if_neg (Ne.symm c2), if_neg (Ne.symm d1), if_pos rfl]
    simp [h.suffix, hnc.uint x s hv, stored]
  | bool c =>
    simp only [writeValue] at h ⊢
    unfold readVal
    rw [if_neg (Ne.symm a6), if_neg (Ne.symm b5), if_neg (Ne.symm c4), if_neg (Ne.symm d3), if_neg (Ne.symm e2), if_neg (Ne.symm f1),
      if_pos rfl]
    have e : [if c then 1 else 0] = encVarint (if c then 1 else 0) := by cases c <;> (unfold encVarint; rfl)
    rw [e] at h
    rw [readUInt64_at h (by split <;> decide)]
    rw [← e]
    cases c <;> simp [stored]

theorem valLoop_at (P : Proto) (nc : NumCodec) (hP : P.Good) (hnc : nc.Law) (b : Bytes) (vals : List GoVal) (s : Bytes) (n : Nat) (aw : Bool) (st : LS)
    (hn : vals.length < n) (hno : ∀ w, NoTag s P.values w) (hok : ∀ v ∈ vals, ValOk v)
    (hfit : ∀ v ∈ vals, (writeValue P nc v).2.length + 1 < 9223372036854775808)
    (h : Rdy b st (vals.flatMap (encValue P nc) ++ s)) :
    ∃ st', whileR (fun st : LS => decide (st.key = P.values ∧ (aw = true ∨ st.wire = 2))) (fun st => Res.of (valBody P nc b st)) n st = .ok st' ∧
      Rdy b st' s ∧ st'.names = st.names ∧ st'.layer = { st.layer with values := st.layer.values ++ vals.map stored } := by
  have := whileR_list (fun st : LS => decide (st.key = P.values ∧ (aw = true ∨ st.wire = 2))) (fun st => Res.of (valBody P nc b st))
    (fun xs st' => Rdy b st' (xs.flatMap (encValue P nc) ++ s) ∧ st'.names = st.names ∧
      ∃ done, vals = done ++ xs ∧ st'.layer = { st.layer with values := st.layer.values ++ done.map stored })
    (by
      rintro v vs st' ⟨hr, hnm, done, hd, hl⟩
      rw [List.flatMap_cons, List.append_assoc, encValue, encBytes_app, List.cons_append] at hr
      obtain ⟨h1, h2, h3⟩ := hr.tag (by decide)
      refine ⟨by simp [h1, h2], ?_⟩
      have hm : v ∈ vals := by rw [hd]; simp
      have h4 := h3.adv
      have h5 := h4.adv1
      obtain ⟨st'', e1, e2, e3, e4⟩ := nextTag_at st' { st'.layer with values := st'.layer.values ++ [stored v] } h5.adv
      refine ⟨st'', ?_, e2, e4.trans hnm, done ++ [v], by simp [hd], ?_⟩
      · simp only [valBody]
        rw [readVarint_at h3 (by simpa using hfit v hm)]
        simp only [Option.bind_some]
        rw [readTag_at h4]
        simp only [Option.bind_some]
        have et : tagByte (writeValue P nc v).1 2 / 8 = (writeValue P nc v).1 := by unfold tagByte; omega
        rw [et, readVal_at P nc hP hnc b _ v _ (hok v hm) h5]
        simp only [Option.bind_some, Option.toList_some]
        rw [e1]; rfl
      · rw [e3, hl]; simp)
    (by
      rintro st' ⟨hr, _⟩
      have hr' : Rdy b st' s := by simpa using hr
      simp only [decide_eq_false_iff_not]
      intro ⟨hk, _⟩
      exact hr'.no (hno st'.wire) ⟨hk, rfl⟩)
    vals n st hn ⟨h, rfl, [], rfl, by simp⟩
  obtain ⟨st', e, hr, hnm, done, hd, hl⟩ := this
  refine ⟨st', e, by simpa using hr, hnm, ?_⟩
  rw [hl, hd]; simp

/-- Sizes a Go int can hold and values that exist in Go. -/
structure LayerOk (P : Proto) (nc : NumCodec) (l : LayerWrite) : Prop where
  body : Fits (layerBody P nc l)
  extent : l.extent < 9223372036854775808
  version : l.version < 9223372036854775808
  values : ∀ v ∈ l.values, ValOk v

theorem encBytes_length (t : Nat) (s : Bytes) : s.length < (encBytes t s).length := by
  simp [encBytes]; omega

theorem flatMap_length_mem {α : Type} (g : α → Bytes) (xs : List α) (x : α) (h : x ∈ xs) : (g x).length ≤ (xs.flatMap g).length := by
  obtain ⟨a, c, rfl⟩ := List.append_of_mem h
  simp [List.flatMap_append]; omega

theorem flatMap_length_ge {α : Type} (g : α → Bytes) (xs : List α) (hg : ∀ x ∈ xs, 1 ≤ (g x).length) : xs.length ≤ (xs.flatMap g).length := by
  induction xs with
  | nil => simp
  | cons x xs ih =>
    have h1 := hg x (by simp)
    have h2 := ih (fun y hy => hg y (by simp [hy]))
    rw [List.flatMap_cons, List.length_append, List.length_cons]; omega

theorem layerBody_length (P : Proto) (nc : NumCodec) (l : LayerWrite) :
    (layerBody P nc l).length = (if l.name.length > 0 then encBytes P.name l.name else []).length +
      (l.features.flatMap (encBytes P.features)).length + (l.keys.flatMap (encBytes P.keys)).length +
      (l.values.flatMap (encValue P nc)).length + (encUInt P.extent l.extent).length + (encUInt P.version l.version).length := by
  simp only [layerBody, List.length_append]

/-- The layer the reader builds from a written one; `ps` are the positions of the features. -/
def readBack (l : LayerWrite) (ps : List Int) (p e : Int) : Layer :=
  { name := l.name, extent := if l.extent = 0 then 4096 else l.extent, version := l.version, keys := l.keys,
    values := l.values.map stored, features := ps, startPos := p, endPos := e }

theorem passExtent_at (P : Proto) (b : Bytes) (st : LS) (v : Nat) (s : Bytes) (hv : v < 9223372036854775808)
    (h : Rdy b st (encUInt P.extent v ++ s)) :
    ∃ st', passExtent P b st = some st' ∧ Rdy b st' s ∧ st'.names = st.names ∧ st'.layer = { st.layer with extent := v } := by
  rw [encUInt_app] at h
  obtain ⟨h1, h2, h3⟩ := h.tag (by decide)
  obtain ⟨st', e1, e2, e3, e4⟩ := nextTag_at st { st.layer with extent := v } h3.adv
  refine ⟨st', ?_, e2, e4, e3⟩
  unfold passExtent
  rw [if_pos ⟨h1, h2⟩, readVarint_at h3 hv]
  exact e1

theorem passVersion_at (P : Proto) (b : Bytes) (st : LS) (v : Nat) (s : Bytes) (hv : v < 9223372036854775808)
    (h : Rdy b st (encUInt P.version v ++ s)) :
    ∃ st', passVersion P b st = some st' ∧ Rdy b st' s ∧ st'.names = st.names ∧ st'.layer = { st.layer with version := v } := by
  rw [encUInt_app] at h
  obtain ⟨h1, h2, h3⟩ := h.tag (by decide)
  obtain ⟨st', e1, e2, e3, e4⟩ := nextTag_at st { st.layer with version := v } h3.adv
  refine ⟨st', ?_, e2, e4, e3⟩
  unfold passVersion
  rw [if_pos ⟨h1, h2⟩, readVarint_at h3 hv]
  exact e1

theorem passName_at (P : Proto) (b : Bytes) (st : LS) (name : Bytes) (s : Bytes) (hv : Fits name) (hno : NoTag s P.name 2)
    (h : Rdy b st ((if name.length > 0 then encBytes P.name name else []) ++ s)) :
    ∃ st', passName P b st = some st' ∧ Rdy b st' s ∧ st'.names = st.names ++ (if name.length > 0 then [name] else []) ∧
      st'.layer = { st.layer with name := if name.length > 0 then name else st.layer.name } := by
  split at h
  · rename_i hl
    rw [encBytes_app] at h
    obtain ⟨h1, h2, h3⟩ := h.tag (by decide)
    obtain ⟨st', e1, e2, e3, e4⟩ := nextTag_at st { st.layer with name := name } (At.adv h3.adv)
    refine ⟨{ st' with names := st'.names ++ [name] }, ?_, ?_, ?_, ?_⟩
    · unfold passName
      rw [if_pos ⟨h1, h2⟩, readString_at h3 hv]
      simp only [Option.bind_some]
      rw [e1]; rfl
    · cases s <;> exact e2
    · simp [e4, hl]
    · simp [e3, hl]
  · rename_i hl
    refine ⟨st, ?_, by simpa using h, by simp [hl], by simp [hl]⟩
    unfold passName
    rw [if_neg (Rdy.no (by simpa using h) hno)]

/-- Reading a written layer, whatever follows it. -/
theorem newLayer_at (P : Proto) (nc : NumCodec) (hP : P.Good) (hnc : nc.Law) (b : Bytes) (l : LayerWrite) (hl : LayerOk P nc l)
    (p : Int) (s : Bytes) (h : At b p (layerBody P nc l ++ s)) (n : Nat) (hn : (layerBody P nc l).length + 1 < n) :
    ∃ ps, List.Forall₂ (FeatAt b) ps l.features ∧
      ∀ aw, newLayer P nc b n aw p (p + (layerBody P nc l).length) =
        .ok (readBack l ps p (p + (layerBody P nc l).length), if l.name.length > 0 then [l.name] else []) := by
  have hd := hP.layer
  simp only [List.nodup_cons, List.mem_cons, List.not_mem_nil, or_false, not_or, List.nodup_nil, and_true, not_false_eq_true] at hd
  obtain ⟨⟨a1, a2, a3, a4, a5⟩, ⟨b1, b2, b3, b4⟩, ⟨c1, c2, c3⟩, ⟨d1, d2⟩, e0⟩ := hd
  have hlen := layerBody_length P nc l
  have hbody := hl.body
  unfold Fits at hbody
  have hx : ∀ t v, 2 ≤ (encUInt t v).length := by
    intro t v; have := List.length_pos_iff.mpr (encVarint_ne_nil v); simp only [encUInt, List.length_cons]; omega
  have hx1 := hx P.extent l.extent
  have hx2 := hx P.version l.version
  have hfeat : ∀ f ∈ l.features, Fits f := by
    intro f hf
    have h1 := flatMap_length_mem (encBytes P.features) l.features f hf
    have h2 := encBytes_length P.features f
    unfold Fits; omega
  have hkey : ∀ f ∈ l.keys, Fits f := by
    intro f hf
    have h1 := flatMap_length_mem (encBytes P.keys) l.keys f hf
    have h2 := encBytes_length P.keys f
    unfold Fits; omega
  have hval : ∀ v ∈ l.values, (writeValue P nc v).2.length + 1 < 9223372036854775808 := by
    intro v hv
    have h1 := flatMap_length_mem (encValue P nc) l.values v hv
    have h2 := encBytes_length P.values (tagByte (writeValue P nc v).1 2 :: (writeValue P nc v).2)
    have h3 : (encValue P nc v).length = (encBytes P.values (tagByte (writeValue P nc v).1 2 :: (writeValue P nc v).2)).length := rfl
    simp only [List.length_cons] at h2; omega
  have hname : Fits l.name := by
    unfold Fits
    by_cases h0 : l.name.length > 0
    · have h2 := encBytes_length P.name l.name
      rw [if_pos h0] at hlen; omega
    · omega
  have g1 : ∀ t (xs : List Bytes), xs.length ≤ (xs.flatMap (encBytes t)).length := by
    intro t xs; exact flatMap_length_ge _ xs (fun x _ => by simp [encBytes])
  have hnf := g1 P.features l.features
  have hnk := g1 P.keys l.keys
  have hnv : l.values.length ≤ (l.values.flatMap (encValue P nc)).length :=
    flatMap_length_ge _ _ (fun x _ => by simp [encValue, encBytes])
  -- the parts that follow
  let sVer := encUInt P.version l.version ++ s
  let sExt := encUInt P.extent l.extent ++ sVer
  let sVal := l.values.flatMap (encValue P nc) ++ sExt
  let sKey := l.keys.flatMap (encBytes P.keys) ++ sVal
  let sFeat := l.features.flatMap (encBytes P.features) ++ sKey
  have hassoc : layerBody P nc l ++ s = (if l.name.length > 0 then encBytes P.name l.name else []) ++ sFeat := by
    simp only [layerBody, sFeat, sKey, sVal, sExt, sVer, List.append_assoc]
  have hEb : ∀ t (x : Bytes), ∃ r, encBytes t x = tagByte t 2 :: r := fun t x => ⟨_, by simp [encBytes]; rfl⟩
  have nExt' : ∀ t, t ≠ P.extent → ∀ w, NoTag sExt t w := fun t ht w => by
    show NoTag (encUInt P.extent l.extent ++ sVer) t w
    rw [encUInt_app]; exact noTag_tagByte _ _ _ _ _ (by decide) (by intro ⟨e, _⟩; exact ht e.symm)
  have nExt : ∀ t, t ≠ P.extent → NoTag sExt t 2 := fun t ht => by
    show NoTag (encUInt P.extent l.extent ++ sVer) t 2
    rw [encUInt_app]; exact noTag_tagByte _ _ _ _ _ (by decide) (by simp)
  have nVal : ∀ t, t ≠ P.extent → t ≠ P.values → NoTag sVal t 2 := fun t h1 h2 =>
    noTag_flatMap P.values 2 t 2 _ _ _ (by decide) (by intro ⟨e, _⟩; exact h2 e.symm) (fun x _ => hEb _ _) (nExt t h1)
  have nKey : ∀ t, t ≠ P.extent → t ≠ P.values → t ≠ P.keys → NoTag sKey t 2 := fun t h1 h2 h3 =>
    noTag_flatMap P.keys 2 t 2 _ _ _ (by decide) (by intro ⟨e, _⟩; exact h3 e.symm) (fun x _ => hEb _ _) (nVal t h1 h2)
  have nFeat : NoTag sFeat P.name 2 :=
    noTag_flatMap P.features 2 _ 2 _ _ _ (by decide) (by intro ⟨e, _⟩; exact a1 e.symm) (fun x _ => hEb _ _) (nKey _ a4 a3 a2)
  -- first tag
  have h' := h
  rw [hassoc] at h
  obtain ⟨st0, q1, r0, l0, m0⟩ := nextTag_at ⟨0, 0, 0, ⟨[], 0, 0, [], [], [], p, p + (layerBody P nc l).length⟩, []⟩
    ⟨[], 0, 0, [], [], [], p, p + (layerBody P nc l).length⟩ h
  obtain ⟨st1, q2, r1, m1, l1⟩ := passName_at P b st0 l.name sFeat hname nFeat r0
  obtain ⟨st2, ps, q3, r2, m2, l2, hps⟩ := featLoop_at P b l.features sKey n st1 (by omega) (nKey _ b3 b2 b1) hfeat r1
  refine ⟨ps, hps, ?_⟩
  intro aw
  obtain ⟨st3, q4, r3, m3, l3⟩ := keyLoop_at P b l.keys sVal n st2 (by omega) (nVal _ c2 c1) hkey r2
  obtain ⟨st4, q5, r4, m4, l4⟩ := valLoop_at P nc hP hnc b l.values sExt n aw st3 (by omega) (nExt' _ d1) hl.values hval r3
  obtain ⟨st5, q6, r5, m5, l5⟩ := passExtent_at P b st4 l.extent sVer hl.extent r4
  obtain ⟨st6, q7, r6, m6, l6⟩ := passVersion_at P b st5 l.version s hl.version r5
  have hpass : layerPass P nc b n aw st0 = .ok st6 := by
    unfold layerPass
    simp only [q2, Res.of_some, Res.bind_ok]
    rw [q3, Res.bind_ok, q4, Res.bind_ok, q5, Res.bind_ok, q6, Res.of_some, Res.bind_ok, q7, Res.of_some]
  -- positions
  have hpos := h'.pos
  have hend : p + (layerBody P nc l).length ≤ st6.pos := by
    have hb := h'.adv.pos
    cases s with
    | nil => have := r6.2.2.pos; rw [List.length_nil] at this hb; omega
    | cons x s => have := r6.2.2.pos; rw [List.length_cons] at hb; push_cast at hb; omega
  have hstart : st0.pos < p + (layerBody P nc l).length := by
    have e1 : ∃ y ys, (if l.name.length > 0 then encBytes P.name l.name else []) ++ sFeat = y :: ys ∧ At b st0.pos ys := by
      cases hh : (if l.name.length > 0 then encBytes P.name l.name else []) ++ sFeat with
      | nil => rw [← hassoc] at hh; have := congrArg List.length hh; rw [List.length_append, List.length_nil] at this; omega
      | cons y ys => rw [hh] at r0; exact ⟨y, ys, rfl, r0.2.2⟩
    obtain ⟨y, ys, hy, hat⟩ := e1
    have hp2 := hat.pos
    have := congrArg List.length (hassoc.trans hy)
    simp only [List.length_append, List.length_cons] at this hpos
    push_cast at hpos
    omega
  have hread : readTag b p = some (st0.key, st0.wire, st0.pos) ∧ st0.layer = ⟨[], 0, 0, [], [], [], p, p + (layerBody P nc l).length⟩ ∧ st0.names = [] := by
    refine ⟨?_, l0, m0⟩
    unfold nextTag at q1
    cases hrt : readTag b p with
    | none => simp [hrt] at q1
    | some x =>
      obtain ⟨k, w, r⟩ := x
      simp [hrt] at q1
      rw [← q1]
  unfold newLayer
  rw [hread.1, Res.of_some, Res.bind_ok]
  simp only
  have est0 : (⟨st0.key, st0.wire, st0.pos, ⟨[], 0, 0, [], [], [], p, p + (layerBody P nc l).length⟩, []⟩ : LS) = st0 := by
    rw [← hread.2.1, ← hread.2.2]
  rw [est0]
  obtain ⟨n', rfl⟩ : ∃ n', n = n' + 2 := ⟨n - 2, by omega⟩
  rw [whileR, if_pos (by simpa using hstart), hpass, Res.bind_ok]
  rw [whileR, if_neg (by simpa using hend), Res.bind_ok]
  have hlay : st6.layer = { readBack l ps p (p + (layerBody P nc l).length) with extent := l.extent } := by
    rw [l6, l5, l4, l3, l2, l1, l0]
    unfold readBack
    by_cases h0 : l.name.length > 0
    · simp [h0]
    · have : l.name = [] := List.length_eq_zero_iff.mp (by omega)
      simp [this]
  have hnm : st6.names = if l.name.length > 0 then [l.name] else [] := by
    rw [m6, m5, m4, m3, m2, m1, m0]; rfl
  rw [hnm, hlay]
  congr 1
  unfold readBack
  by_cases h0 : l.extent = 0
  · simp [h0]
  · simp [h0]

end Verif.Mvt
