import Verif.Proof.MvtHist

/-! # Lemmas relating the bulk readers to the lazy one -/
namespace Verif.Mvt
open Verif.Go Verif.Pbf

theorem Res.bind_eq_ok {α β : Type} {x : Res α} {f : α → Res β} {y : β} (h : x.bind f = .ok y) : ∃ a, x = .ok a ∧ f a = .ok y := by
  cases x with
  | ok a => exact ⟨a, rfl, h⟩
  | panic => simp [Res.bind] at h
  | hang => simp [Res.bind] at h

theorem Res.of_eq_ok {α : Type} {x : Option α} {y : α} (h : Res.of x = .ok y) : x = some y := by
  cases x with
  | none => simp [Res.of] at h
  | some a => simp [Res.of] at h; rw [h]

/-- A loop whose pass does not change the state never ends. -/
theorem whileR_stuck {S : Type} (cond : S → Bool) (body : S → Res S) (s : S) (hc : cond s = true) (hb : body s = .ok s ∨ body s = .hang) :
    ∀ n, whileR cond body n s = .hang := by
  intro n
  induction n with
  | zero => rfl
  | succ n ih =>
    rw [whileR, if_pos hc]
    rcases hb with h | h
    · rw [h, Res.bind_ok, ih]
    · rw [h]; rfl

/-- A loop that keeps `I`, under which it goes on, never ends. -/
theorem whileR_forever {S : Type} (cond : S → Bool) (body : S → Res S) (I : S → Prop)
    (h : ∀ s, I s → cond s = true ∧ (body s = .hang ∨ ∃ s', body s = .ok s' ∧ I s')) : ∀ n s, I s → whileR cond body n s = .hang := by
  intro n
  induction n with
  | zero => intro s _; rfl
  | succ n ih =>
    intro s hs
    obtain ⟨h1, h2⟩ := h s hs
    rw [whileR, if_pos h1]
    rcases h2 with h2 | ⟨s', h2, h3⟩
    · rw [h2]; rfl
    · rw [h2, Res.bind_ok, ih s' h3]

/-- A property of the loop state kept by every pass holds at the end. -/
theorem whileR_inv {S : Type} (cond : S → Bool) (body : S → Res S) (I : S → Prop) (hstep : ∀ s s', I s → body s = .ok s' → I s') :
    ∀ (n : Nat) (s s' : S), I s → whileR cond body n s = .ok s' → I s' := by
  intro n
  induction n with
  | zero => intro s s' _ h; simp [whileR] at h
  | succ n ih =>
    intro s s' hi h
    rw [whileR] at h
    split at h
    · obtain ⟨a, h1, h2⟩ := Res.bind_eq_ok h
      exact ih a s' (hstep s a hi h1) h2
    · simp at h; rw [← h]; exact hi

section
variable (P : Proto) (nc : NumCodec) (b : Bytes) (p e : Int)

/-- The layer of `st` starts at `p` and ends at `e`. -/
def Spans (st : LS) : Prop := st.layer.startPos = p ∧ st.layer.endPos = e

theorem nextTag_spans {st st' : LS} {q : Int} {l : Layer} (hl : l.startPos = p ∧ l.endPos = e) (h : nextTag b st q l = some st') : Spans p e st' := by
  unfold nextTag at h
  cases hr : readTag b q with
  | none => simp [hr] at h
  | some x => obtain ⟨k, w, r⟩ := x; simp [hr] at h; rw [← h]; exact hl

theorem layerPass_spans (n : Nat) (aw : Bool) (st st' : LS) (hs : Spans p e st) (h : layerPass P nc b n aw st = .ok st') : Spans p e st' := by
  unfold layerPass at h
  obtain ⟨s1, h1, h⟩ := Res.bind_eq_ok h
  obtain ⟨s2, h2, h⟩ := Res.bind_eq_ok h
  obtain ⟨s3, h3, h⟩ := Res.bind_eq_ok h
  obtain ⟨s4, h4, h⟩ := Res.bind_eq_ok h
  obtain ⟨s5, h5, h⟩ := Res.bind_eq_ok h
  have i1 : Spans p e s1 := by
    have h1 := Res.of_eq_ok h1
    unfold passName at h1
    split at h1
    · cases hr : readString b st.pos with
      | none => simp [hr] at h1
      | some x =>
        obtain ⟨t, q⟩ := x
        simp only [hr, Option.bind_some] at h1
        cases hn : nextTag b st q { st.layer with name := t } with
        | none => simp [hn] at h1
        | some y =>
          simp [hn] at h1
          have := nextTag_spans b p e (l := { st.layer with name := t }) hs hn
          rw [← h1]; exact this
    · simp at h1; rw [← h1]; exact hs
  have i2 : Spans p e s2 := by
    refine whileR_inv _ _ (Spans p e) ?_ _ _ _ i1 h2
    intro s s' hi hb
    have hb := Res.of_eq_ok hb
    unfold featBody at hb
    obtain ⟨x, _, hb⟩ := Option.bind_eq_some_iff.mp hb
    exact nextTag_spans b p e (by exact hi) hb
  have i3 : Spans p e s3 := by
    refine whileR_inv _ _ (Spans p e) ?_ _ _ _ i2 h3
    intro s s' hi hb
    have hb := Res.of_eq_ok hb
    unfold keyBody at hb
    obtain ⟨x, _, hb⟩ := Option.bind_eq_some_iff.mp hb
    exact nextTag_spans b p e (by exact hi) hb
  have i4 : Spans p e s4 := by
    refine whileR_inv _ _ (Spans p e) ?_ _ _ _ i3 h4
    intro s s' hi hb
    have hb := Res.of_eq_ok hb
    unfold valBody at hb
    obtain ⟨x, _, hb⟩ := Option.bind_eq_some_iff.mp hb
    obtain ⟨y, _, hb⟩ := Option.bind_eq_some_iff.mp hb
    obtain ⟨z, _, hb⟩ := Option.bind_eq_some_iff.mp hb
    exact nextTag_spans b p e (by exact hi) hb
  have i5 : Spans p e s5 := by
    have h5 := Res.of_eq_ok h5
    unfold passExtent at h5
    split at h5
    · obtain ⟨x, _, hb⟩ := Option.bind_eq_some_iff.mp h5
      exact nextTag_spans b p e (by exact i4) hb
    · simp at h5; rw [← h5]; exact i4
  have h6 := Res.of_eq_ok h
  unfold passVersion at h6
  split at h6
  · obtain ⟨x, _, hb⟩ := Option.bind_eq_some_iff.mp h6
    exact nextTag_spans b p e (by exact i5) hb
  · simp at h6; rw [← h6]; exact i5

theorem newLayer_spans (n : Nat) (aw : Bool) (L : Layer) (ns : List Bytes) (h : newLayer P nc b n aw p e = .ok (L, ns)) :
    L.startPos = p ∧ L.endPos = e := by
  unfold newLayer at h
  obtain ⟨⟨k, w, q⟩, _, h⟩ := Res.bind_eq_ok h
  obtain ⟨st, h1, h⟩ := Res.bind_eq_ok h
  have hi : Spans p e st := whileR_inv _ _ (Spans p e) (fun s s' hs hb => layerPass_spans P nc b p e n aw s s' hs hb) _ _ _ ⟨rfl, rfl⟩ h1
  simp only [Res.ok.injEq, Prod.mk.injEq] at h
  rw [← h.1]
  split <;> exact hi

end

/-! ### One feature, with carried values -/

/-- `st'` is `st` except that fields not read yet have the carried values. -/
structure Sim (c : Carry) (st st' : FS) : Prop where
  pos : st'.pos = st.pos
  props : st'.feat.props = st.feat.props
  id : st'.feat.id = st.feat.id ∨ (st'.feat.id = c.id ∧ st.feat.id = 0)
  geomInt : st'.feat.geomInt = st.feat.geomInt ∨ (st'.feat.geomInt = c.geomInt ∧ st.feat.geomInt = 0)
  geometryPos : st'.feat.geometryPos = st.feat.geometryPos ∨ (st'.feat.geometryPos = c.geometryPos ∧ st.feat.geometryPos = 0)

/-- Two options that are both `none`, or related. -/
def optRel {α : Type} (R : α → α → Prop) (x y : Option α) : Prop :=
  (x = none ∧ y = none) ∨ ∃ a a', x = some a ∧ y = some a' ∧ R a a'

theorem optRel_bind {α : Type} {R : α → α → Prop} {x y : Option α} {f g : α → Option α} (h : optRel R x y)
    (hf : ∀ a a', R a a' → optRel R (f a) (g a')) : optRel R (x.bind f) (y.bind g) := by
  rcases h with ⟨rfl, rfl⟩ | ⟨a, a', rfl, rfl, hr⟩
  · exact Or.inl ⟨rfl, rfl⟩
  · exact hf a a' hr

/-- `featLoopBody` for arbitrary readers. -/
def genBody (P : Proto) (conv : Int → Int) (ru : Int → Option (Nat × Int)) (rp : Int → Option (List Nat × Int)) (vf : Int → Option (Nat × Int))
    (rv : Int → Option (Int × Int)) (rt : Int → Option (Nat × Nat × Int)) (skip : Int) (l : Layer) (st : FS) : Option FS :=
  (rt st.pos).bind fun (k, w, p) =>
    let st := { st with pos := p }
    (if k = P.fID ∧ w = 0 then (ru st.pos).map fun (v, q) => (⟨q, { st.feat with id := conv v }⟩ : FS) else some st).bind fun st =>
    (if k = P.fTags ∧ w = 2 then (rp st.pos).bind fun (ts, q) => (resolveTags l.keys l.values ts).map fun r =>
        (⟨q, { st.feat with props := st.feat.props ++ r }⟩ : FS) else some st).bind fun st =>
    (if k = P.fType ∧ w = 0 then (vf st.pos).map fun (v, q) => (⟨q, { st.feat with geomInt := v }⟩ : FS) else some st).bind fun st =>
    (if k = P.fGeometry ∧ w = 2 then (rv st.pos).map fun (v, q) => (⟨q + v + skip, { st.feat with geometryPos := st.pos }⟩ : FS) else some st)

theorem featLoopBody_eq (P : Proto) (b : Bytes) (skip : Int) (l : Layer) :
    featLoopBody P b skip l = genBody P i64 (readUInt64 b) (readPacked b) (varintFirst b) (readVarint b) (readTag b) skip l := rfl

theorem genBody_sim (P : Proto) (conv : Int → Int) (ru : Int → Option (Nat × Int)) (rp : Int → Option (List Nat × Int)) (vf : Int → Option (Nat × Int))
    (rv : Int → Option (Int × Int)) (rt : Int → Option (Nat × Nat × Int)) (skip : Int) (l : Layer) (c : Carry) (st st' : FS) (h : Sim c st st') :
    optRel (Sim c) (genBody P conv ru rp vf rv rt skip l st) (genBody P conv ru rp vf rv rt skip l st') := by
  unfold genBody
  rw [h.pos]
  cases hr : rt st.pos with
  | none => exact Or.inl ⟨rfl, rfl⟩
  | some x =>
    obtain ⟨k, w, q⟩ := x
    simp only [Option.bind_some]
    have h0 : Sim c ⟨q, st.feat⟩ ⟨q, st'.feat⟩ := ⟨rfl, h.props, h.id, h.geomInt, h.geometryPos⟩
    refine optRel_bind ?_ fun s s' h1 => optRel_bind ?_ fun s s' h1 => optRel_bind ?_ fun s s' h1 => ?_
    · split
      · cases hu : ru q with
        | none => exact Or.inl ⟨rfl, rfl⟩
        | some y => exact Or.inr ⟨_, _, rfl, rfl, rfl, h.props, Or.inl rfl, h.geomInt, h.geometryPos⟩
      · exact Or.inr ⟨_, _, rfl, rfl, h0⟩
    · split
      · rw [h1.pos]
        cases hu : rp s.pos with
        | none => exact Or.inl ⟨rfl, rfl⟩
        | some y =>
          obtain ⟨ts, q⟩ := y
          simp only [Option.bind_some]
          cases hv : resolveTags l.keys l.values ts with
          | none => exact Or.inl ⟨rfl, rfl⟩
          | some r => exact Or.inr ⟨_, _, rfl, rfl, rfl, by simp [h1.props], h1.id, h1.geomInt, h1.geometryPos⟩
      · exact Or.inr ⟨_, _, rfl, rfl, h1⟩
    · split
      · rw [h1.pos]
        cases hu : vf s.pos with
        | none => exact Or.inl ⟨rfl, rfl⟩
        | some y => exact Or.inr ⟨_, _, rfl, rfl, rfl, h1.props, h1.id, Or.inl rfl, h1.geometryPos⟩
      · exact Or.inr ⟨_, _, rfl, rfl, h1⟩
    · split
      · rw [h1.pos]
        cases hu : rv s.pos with
        | none => exact Or.inl ⟨rfl, rfl⟩
        | some y => exact Or.inr ⟨_, _, rfl, rfl, rfl, h1.props, h1.id, h1.geomInt, Or.inl rfl⟩
      · exact Or.inr ⟨_, _, rfl, rfl, h1⟩

theorem featLoopBody_sim (P : Proto) (b : Bytes) (skip : Int) (l : Layer) (c : Carry) (st st' : FS) (h : Sim c st st') :
    optRel (Sim c) (featLoopBody P b skip l st) (featLoopBody P b skip l st') := by
  rw [featLoopBody_eq]
  exact genBody_sim _ _ _ _ _ _ _ _ _ _ _ _ h

theorem featLoop_sim (P : Proto) (b : Bytes) (skip : Int) (l : Layer) (c : Carry) (E : Int) (n : Nat) : ∀ (st st' : FS) (r : FS), Sim c st st' →
    whileR (fun st : FS => st.pos < E) (fun st => Res.of (featLoopBody P b skip l st)) n st = .ok r →
    ∃ r', whileR (fun st : FS => st.pos < E) (fun st => Res.of (featLoopBody P b skip l st)) n st' = .ok r' ∧ Sim c r r' := by
  induction n with
  | zero => intro st st' r _ h; simp [whileR] at h
  | succ n ih =>
    intro st st' r hs h
    rw [whileR] at h ⊢
    rw [hs.pos]
    split at h
    · rename_i hc
      rw [if_pos hc]
      obtain ⟨a, h1, h2⟩ := Res.bind_eq_ok h
      have h1 := Res.of_eq_ok h1
      rcases featLoopBody_sim P b skip l c st st' hs with ⟨e, _⟩ | ⟨a1, a2, e1, e2, hr⟩
      · rw [e] at h1; simp at h1
      · rw [e1] at h1
        simp at h1; subst h1
        rw [e2]
        exact ih _ _ _ hr h2
    · rename_i hc
      rw [if_neg hc]
      simp at h; subst h
      exact ⟨st', rfl, hs⟩

/-- Reading a feature in bulk, with carried values, against reading it alone: the properties are the same, and so is each of
id, type and geometry position unless the feature has none, in which case the bulk reader has the carried value. -/
theorem readFrom_sim (P : Proto) (b : Bytes) (late : Bool) (n : Nat) (l : Layer) (c : Carry) (p : Int) (f : Feature)
    (h : readFeature P b late n l p = .ok f) :
    ∃ f', readFeatureFrom P b late 0 n l ⟨c.id, [], c.geometryPos, c.geomInt, 0⟩ p = .ok f' ∧ f'.props = f.props ∧ f'.extent = f.extent ∧
      f.extent = l.extent ∧
      (f'.id = f.id ∨ (f'.id = c.id ∧ f.id = 0)) ∧ (f'.geomInt = f.geomInt ∨ (f'.geomInt = c.geomInt ∧ f.geomInt = 0)) ∧
      (f'.geometryPos = f.geometryPos ∨ (f'.geometryPos = c.geometryPos ∧ f.geometryPos = 0)) := by
  unfold readFeature readFeatureFrom at h
  unfold readFeatureFrom
  obtain ⟨⟨sz, q⟩, h1, h⟩ := Res.bind_eq_ok h
  rw [h1, Res.bind_ok]
  obtain ⟨st, h2, h⟩ := Res.bind_eq_ok h
  obtain ⟨r', h3, hs⟩ := featLoop_sim P b 0 l c _ n ⟨q, ⟨0, [], 0, 0, 0⟩⟩ ⟨q, ⟨c.id, [], c.geometryPos, c.geomInt, 0⟩⟩ st
    ⟨rfl, rfl, Or.inr ⟨rfl, rfl⟩, Or.inr ⟨rfl, rfl⟩, Or.inr ⟨rfl, rfl⟩⟩ h2
  simp only [Res.ok.injEq] at h
  refine ⟨{ r'.feat with extent := l.extent }, ?_, ?_⟩
  · simp only; rw [h3, Res.bind_ok]
  · rw [← h]; exact ⟨hs.props, rfl, rfl, hs.id, hs.geomInt, hs.geometryPos⟩

/-- A feature readable on its own with type and geometry. -/
def FullFeature (P : Proto) (b : Bytes) (late : Bool) (n : Nat) (L : Layer) (p : Int) : Prop :=
  ∃ f g, readFeature P b late n L p = .ok f ∧ f.geomInt ≠ 0 ∧ f.geometryPos ≠ 0 ∧ loadGeom b f = some g

/-- If the feature at `p` has an id, so has the one at `q`. -/
def IdKeeps (P : Proto) (b : Bytes) (late : Bool) (n : Nat) (L : Layer) (p q : Int) : Prop :=
  ∀ f g, readFeature P b late n L p = .ok f → readFeature P b late n L q = .ok g → g.id = 0 → f.id = 0

/-- `o` is what the lazy reader and `ToGeoJSON` make of the feature at `p`, plus a property `layer` and with no id
instead of the id 0. -/
def LazyWithLayer (P : Proto) (b : Bytes) (late : Bool) (n : Nat) (L : Layer) (p : Int) (o : OutFeature) : Prop :=
  ∃ f x, readFeature P b late n L p = .ok f ∧ toGeoJSON b f = some x ∧ o = { x with id := if f.id ≠ 0 then some f.id else none, props := x.props ++ [(layerKey, .str L.name)] }

/-- `hskip`: reading with `skip` changes nothing (trivial for `skip = 0`). -/
theorem bulkFeatures_lazy (P : Proto) (b : Bytes) (late : Bool) (n : Nat) (L : Layer) (skip : Int) (ps : List Int) :
    ∀ c : Carry, (∀ p ∈ ps, FullFeature P b late n L p) → ps.Pairwise (IdKeeps P b late n L) →
    (c.id = 0 ∨ ∀ p ∈ ps, ∀ f, readFeature P b late n L p = .ok f → f.id ≠ 0) →
    (∀ p ∈ ps, ∀ c : Carry, readFeatureFrom P b late skip n L ⟨c.id, [], c.geometryPos, c.geomInt, 0⟩ p =
      readFeatureFrom P b late 0 n L ⟨c.id, [], c.geometryPos, c.geomInt, 0⟩ p) →
    ∃ os, bulkFeatures P b late skip n L c ps = .ok os ∧ List.Forall₂ (LazyWithLayer P b late n L) ps os := by
  induction ps with
  | nil => intro c _ _ _ _; exact ⟨[], rfl, .nil⟩
  | cons p ps ih =>
    intro c hf hids hc hskip
    obtain ⟨f, g, h1, h3, h4, h5⟩ := hf p (by simp)
    rw [List.pairwise_cons] at hids
    obtain ⟨f', e1, e2, e3, e4, e5, e6, e7⟩ := readFrom_sim P b late n L c p f h1
    have k1 : f'.id = f.id := by 
      rcases e5 with h | ⟨h, h'⟩
      · exact h
      · rcases hc with hc | hc
        · rw [h, h', hc]
        · exact absurd h' (hc p (by simp) f h1)
    have k2 : f'.geomInt = f.geomInt := by rcases e6 with h | ⟨_, h⟩; exact h; exact absurd h h3
    have k3 : f'.geometryPos = f.geometryPos := by rcases e7 with h | ⟨_, h⟩; exact h; exact absurd h h4
    have hff : f' = f := by
      obtain ⟨a1, a2, a3, a4, a5⟩ := f
      obtain ⟨b1, b2, b3, b4, b5⟩ := f'
      simp only at k1 k2 k3 e2 e3
      simp [k1, k2, k3, e2, e3]
    subst hff
    obtain ⟨os, i1, i2⟩ := ih ⟨f'.geometryPos, f'.id, f'.geomInt⟩ (fun q hq => hf q (by simp [hq])) hids.2 (by
      by_cases h0 : f'.id = 0
      · exact .inl h0
      · exact .inr fun q hq g hg hz => h0 (hids.1 q hq f' g h1 hg hz)) (fun q hq => hskip q (by simp [hq]))
    refine ⟨⟨if f'.id ≠ 0 then some f'.id else none, f'.props ++ [(layerKey, .str L.name)], g, L.extent⟩ :: os, ?_, .cons ?_ i2⟩
    · rw [bulkFeatures, hskip p (by simp) c, e1, Res.bind_ok, h5, Res.of_some, Res.bind_ok, i1, Res.bind_ok]
      rfl
    · exact ⟨f', ⟨some f'.id, f'.props, g, f'.extent⟩, h1, by rw [toGeoJSON, h5]; rfl, by rw [e4]⟩

/-- The loop of `ReadTile` against the loop of `NewTile`. -/
theorem bulkLoop_lazy (P : Proto) (nc : NumCodec) (b : Bytes) (late aw : Bool) (skip : Int) (n : Nat) (t : TS)
    (hfull : ∀ L ∈ t.layers, ∀ p ∈ L.features, FullFeature P b late n L p)
    (hids : ∀ L ∈ t.layers, L.features.Pairwise (IdKeeps P b late n L))
    (hskip : ∀ L ∈ t.layers, ∀ p ∈ L.features, ∀ c : Carry, readFeatureFrom P b late skip n L ⟨c.id, [], c.geometryPos, c.geomInt, 0⟩ p =
      readFeatureFrom P b late 0 n L ⟨c.id, [], c.geometryPos, c.geomInt, 0⟩ p)
    (haw : ∀ L ∈ t.layers, ∀ ns, newLayer P nc b n false L.startPos L.endPos = .ok (L, ns) → newLayer P nc b n aw L.startPos L.endPos = .ok (L, ns)) :
    ∀ (m : Nat) (st : TS) (bs : BS), st.pos = bs.pos →
      whileR (fun st : TS => st.pos < b.length) (tileBody P nc b n) m st = .ok t →
      ∃ new oss, t.layers = st.layers ++ new ∧ List.Forall₂ (fun L os => List.Forall₂ (LazyWithLayer P b late n L) L.features os) new oss ∧
        whileR (fun st : BS => st.pos < b.length) (bulkBody P nc b late aw skip n) m bs = .ok ⟨t.pos, bs.outs ++ oss.flatten⟩ := by
  intro m
  induction m with
  | zero => intro st bs _ h; simp [whileR] at h
  | succ m ih =>
    intro st bs hpos h
    rw [whileR] at h ⊢
    rw [← hpos]
    split at h
    · rename_i hc
      rw [if_pos hc]
      obtain ⟨st1, h1, h2⟩ := Res.bind_eq_ok h
      unfold tileBody at h1
      have hbb : bulkBody P nc b late aw skip n bs = (Res.of (readTag b bs.pos)).bind fun (k, w, q) =>
          if k = P.layers ∧ w = 2 then
            (Res.of (readVarint b q)).bind fun (size, r) =>
              if size ≠ 0 then
                (newLayer P nc b n aw r (r + size)).bind fun (l, _) =>
                  (bulkFeatures P b late skip n l ⟨0, 0, 0⟩ l.features).bind fun os => .ok ⟨r + size, bs.outs ++ os⟩
              else .ok { bs with pos := r }
          else .ok { bs with pos := q } := rfl
      rw [hbb, ← hpos]
      obtain ⟨⟨k, w, q⟩, h3, h1⟩ := Res.bind_eq_ok h1
      rw [h3, Res.bind_ok]
      simp only at h1 ⊢
      by_cases hkw : k = P.layers ∧ w = 2
      · rw [if_pos hkw] at h1 ⊢
        obtain ⟨⟨size, r⟩, h4, h1⟩ := Res.bind_eq_ok h1
        rw [h4, Res.bind_ok]
        simp only at h1 ⊢
        by_cases hsz : size ≠ 0
        · rw [if_pos hsz] at h1 ⊢
          obtain ⟨⟨L, ns⟩, h5, h1⟩ := Res.bind_eq_ok h1
          simp only [Res.ok.injEq] at h1
          have hL : L ∈ t.layers := by
            have := whileR_inv (fun st : TS => decide (st.pos < b.length)) (tileBody P nc b n) (fun s => L ∈ s.layers)
              (by
                intro s s' hs hb
                unfold tileBody at hb
                obtain ⟨⟨k, w, q⟩, _, hb⟩ := Res.bind_eq_ok hb
                simp only at hb
                split at hb
                · obtain ⟨⟨z, r⟩, _, hb⟩ := Res.bind_eq_ok hb
                  simp only at hb
                  split at hb
                  · obtain ⟨⟨L', ns'⟩, _, hb⟩ := Res.bind_eq_ok hb
                    simp only [Res.ok.injEq] at hb
                    rw [← hb]; simp [hs]
                  · simp only [Res.ok.injEq] at hb
                    rw [← hb]; exact hs
                · simp only [Res.ok.injEq] at hb
                  rw [← hb]; exact hs) m st1 t (by rw [← h1]; simp) h2
            exact this
          obtain ⟨sp, ep⟩ := newLayer_spans P nc b r (r + size) n false L ns h5
          have h6 := haw L hL ns (by rw [sp, ep]; exact h5)
          rw [sp, ep] at h6
          rw [h6, Res.bind_ok]
          simp only
          obtain ⟨os, i1, i2⟩ := bulkFeatures_lazy P b late n L skip L.features ⟨0, 0, 0⟩ (hfull L hL) (hids L hL) (.inl rfl) (hskip L hL)
          rw [i1, Res.bind_ok, Res.bind_ok]
          obtain ⟨new, oss, j1, j2, j3⟩ := ih st1 ⟨r + size, bs.outs ++ os⟩ (by rw [← h1]) h2
          refine ⟨L :: new, os :: oss, ?_, .cons i2 j2, ?_⟩
          · rw [j1, ← h1]; simp
          · rw [j3]; simp
        · rw [if_neg hsz] at h1 ⊢
          simp only [Res.ok.injEq] at h1
          rw [Res.bind_ok]
          obtain ⟨new, oss, j1, j2, j3⟩ := ih st1 ⟨r, bs.outs⟩ (by rw [← h1]) h2
          exact ⟨new, oss, by rw [j1, ← h1], j2, j3⟩
      · rw [if_neg hkw] at h1 ⊢
        simp only [Res.ok.injEq] at h1
        rw [Res.bind_ok]
        obtain ⟨new, oss, j1, j2, j3⟩ := ih st1 ⟨q, bs.outs⟩ (by rw [← h1]) h2
        exact ⟨new, oss, by rw [j1, ← h1], j2, j3⟩
    · rename_i hc
      rw [if_neg hc]
      simp only [Res.ok.injEq] at h
      subst h
      exact ⟨[], [], by simp, .nil, by simp [hpos]⟩

end Verif.Mvt
