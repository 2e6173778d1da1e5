import Verif.Model.MvtResult
import Verif.Proof.MvtBulk
import Verif.Proof.MvtFeature

/-!
# Loops that keep their state, and the layer loop with another initial extent
-/
namespace Verif.Mvt
open Verif.Go Verif.Pbf

theorem whileK_whileR {S : Type} (cond : S → Bool) (body : S → Res S) : ∀ (n : Nat) (s : S),
    whileR cond body n s = match (whileK cond body n s).2 with
      | .done => .ok (whileK cond body n s).1
      | .panicked => .panic
      | .hang => .hang := by
  intro n
  induction n with
  | zero => intro s; rfl
  | succ n ih =>
    intro s
    rw [whileR, whileK]
    by_cases hc : cond s = true
    · rw [if_pos hc, if_pos hc]
      cases hb : body s with
      | ok s' => exact ih s'
      | panic => rfl
      | hang => rfl
    · rw [if_neg hc, if_neg hc]

/-- The state at the end has what every pass keeps. -/
theorem whileK_inv {S : Type} (cond : S → Bool) (body : S → Res S) (I : S → Prop) (hstep : ∀ s s', I s → body s = .ok s' → I s') :
    ∀ (n : Nat) (s : S), I s → I (whileK cond body n s).1 := by
  intro n
  induction n with
  | zero => intro s h; exact h
  | succ n ih =>
    intro s h
    rw [whileK]
    by_cases hc : cond s = true
    · rw [if_pos hc]
      cases hb : body s with
      | ok s' => exact ih s' (hstep s s' h hb)
      | panic => exact h
      | hang => exact h
    · rw [if_neg hc]; exact h

/-- The first passes of a loop, over a list. -/
theorem whileK_list {α S : Type} (cond : S → Bool) (body : S → Res S) (inv : List α → S → Prop)
    (hstep : ∀ x xs s, inv (x :: xs) s → cond s = true ∧ ∃ s', body s = .ok s' ∧ inv xs s') :
    ∀ (xs : List α) (n : Nat) (s : S), xs.length ≤ n → inv xs s →
      ∃ s', inv [] s' ∧ whileK cond body n s = whileK cond body (n - xs.length) s' := by
  intro xs
  induction xs with
  | nil => intro n s _ h; exact ⟨s, h, rfl⟩
  | cons x xs ih =>
    intro n s hn h
    obtain ⟨n, rfl⟩ : ∃ m, n = m + 1 := ⟨n - 1, by simp at hn; omega⟩
    obtain ⟨h1, s', h2, h3⟩ := hstep x xs s h
    obtain ⟨s'', h4, h5⟩ := ih n s' (by simpa using hn) h3
    refine ⟨s'', h4, ?_⟩
    rw [whileK, if_pos h1, h2]
    simp only [List.length_cons, Nat.add_sub_add_right]
    exact h5

/-- Two outcomes of the same kind with related values. -/
def resRel {α β : Type} (R : α → β → Prop) : Res α → Res β → Prop
  | .ok a, .ok b => R a b
  | .panic, .panic => True
  | .hang, .hang => True
  | _, _ => False

theorem resRel_bind {α β γ δ : Type} {R : α → β → Prop} {Q : γ → δ → Prop} {x : Res α} {y : Res β} {f : α → Res γ} {g : β → Res δ}
    (h : resRel R x y) (hf : ∀ a b, R a b → resRel Q (f a) (g b)) : resRel Q (x.bind f) (y.bind g) := by
  cases x <;> cases y <;> first | exact hf _ _ h | exact h.elim | trivial

theorem resRel_of {α β : Type} {R : α → β → Prop} {x : Option α} {y : Option β}
    (h : (x = none ∧ y = none) ∨ ∃ a b, x = some a ∧ y = some b ∧ R a b) : resRel R (Res.of x) (Res.of y) := by
  rcases h with ⟨rfl, rfl⟩ | ⟨a, b, rfl, rfl, h⟩
  · trivial
  · exact h

theorem resRel_refl {α : Type} (R : α → α → Prop) (hR : ∀ a, R a a) (x : Res α) : resRel R x x := by
  cases x with
  | ok a => exact hR a
  | panic => trivial
  | hang => trivial

theorem whileR_rel {S T : Type} (R : S → T → Prop) (c1 : S → Bool) (c2 : T → Bool) (b1 : S → Res S) (b2 : T → Res T)
    (hc : ∀ s t, R s t → c1 s = c2 t) (hb : ∀ s t, R s t → resRel R (b1 s) (b2 t)) :
    ∀ (n : Nat) (s : S) (t : T), R s t → resRel R (whileR c1 b1 n s) (whileR c2 b2 n t) := by
  intro n
  induction n with
  | zero => intro s t _; trivial
  | succ n ih =>
    intro s t h
    rw [whileR, whileR, hc s t h]
    by_cases h1 : c2 t = true
    · rw [if_pos h1, if_pos h1]
      exact resRel_bind (hb s t h) (fun a b hab => ih a b hab)
    · rw [if_neg h1, if_neg h1]
      exact h

/-! ### The layer loop does not look at the extent -/

/-- Layers equal but for the extent. -/
def SameL (l m : Layer) : Prop := { l with extent := 0 } = { m with extent := 0 }

/-- Loop states equal but for the extent. -/
def SameLS (s t : LS) : Prop := s.key = t.key ∧ s.wire = t.wire ∧ s.pos = t.pos ∧ s.names = t.names ∧ SameL s.layer t.layer

theorem SameL.fields {l m : Layer} (h : SameL l m) : l.name = m.name ∧ l.version = m.version ∧ l.keys = m.keys ∧ l.values = m.values ∧
    l.features = m.features ∧ l.startPos = m.startPos ∧ l.endPos = m.endPos := by
  unfold SameL at h
  simp only [Layer.mk.injEq, true_and] at h
  tauto

theorem SameL.mk' {l m : Layer} (h : l.name = m.name ∧ l.version = m.version ∧ l.keys = m.keys ∧ l.values = m.values ∧
    l.features = m.features ∧ l.startPos = m.startPos ∧ l.endPos = m.endPos) : SameL l m := by
  unfold SameL
  simp only [Layer.mk.injEq, true_and]
  tauto

/-- Related optional states. -/
def OptSame (x y : Option LS) : Prop := (x = none ∧ y = none) ∨ ∃ a b, x = some a ∧ y = some b ∧ SameLS a b

theorem nextTag_same (b : Bytes) {s t : LS} (h : SameLS s t) (q : Int) {l m : Layer} (hl : SameL l m) : OptSame (nextTag b s q l) (nextTag b t q m) := by
  unfold nextTag
  cases readTag b q with
  | none => exact Or.inl ⟨rfl, rfl⟩
  | some x =>
    obtain ⟨k, w, r⟩ := x
    exact Or.inr ⟨_, _, rfl, rfl, rfl, rfl, rfl, h.2.2.2.1, hl⟩

theorem optBind_same {α : Type} (x : Option α) {f g : α → Option LS} (h : ∀ a, OptSame (f a) (g a)) : OptSame (x.bind f) (x.bind g) := by
  cases x with
  | none => exact Or.inl ⟨rfl, rfl⟩
  | some a => exact h a

theorem passName_same (P : Proto) (b : Bytes) {s t : LS} (h : SameLS s t) : OptSame (passName P b s) (passName P b t) := by
  unfold passName
  rw [h.1, h.2.1, h.2.2.1]
  split
  · refine optBind_same _ (fun x => ?_)
    obtain ⟨y, q⟩ := x
    have hl := h.2.2.2.2.fields
    rcases nextTag_same b h q (l := { s.layer with name := y }) (m := { t.layer with name := y }) (SameL.mk' (by tauto)) with ⟨e1, e2⟩ | ⟨a, c, e1, e2, e3⟩
    · simp only [e1, e2]; exact Or.inl ⟨rfl, rfl⟩
    · simp only [e1, e2]
      refine Or.inr ⟨_, _, rfl, rfl, e3.1, e3.2.1, e3.2.2.1, ?_, e3.2.2.2.2⟩
      simp only [e3.2.2.2.1]
  · exact Or.inr ⟨_, _, rfl, rfl, h⟩

theorem featBody_same (b : Bytes) {s t : LS} (h : SameLS s t) : OptSame (featBody b s) (featBody b t) := by
  unfold featBody
  rw [h.2.2.1]
  have hl := h.2.2.2.2.fields
  exact optBind_same _ (fun x => nextTag_same b h _ (SameL.mk' (by simp only; rw [hl.2.2.2.2.1]; tauto)))

theorem keyBody_same (b : Bytes) {s t : LS} (h : SameLS s t) : OptSame (keyBody b s) (keyBody b t) := by
  unfold keyBody
  rw [h.2.2.1]
  have hl := h.2.2.2.2.fields
  exact optBind_same _ (fun x => nextTag_same b h _ (SameL.mk' (by simp only; rw [hl.2.2.1]; tauto)))

theorem valBody_same (P : Proto) (nc : NumCodec) (b : Bytes) {s t : LS} (h : SameLS s t) : OptSame (valBody P nc b s) (valBody P nc b t) := by
  unfold valBody
  rw [h.2.2.1]
  have hl := h.2.2.2.2.fields
  exact optBind_same _ (fun x => optBind_same _ (fun y => optBind_same _ (fun z =>
    nextTag_same b h _ (SameL.mk' (by simp only; rw [hl.2.2.2.1]; tauto)))))

theorem passExtent_same (P : Proto) (b : Bytes) {s t : LS} (h : SameLS s t) : OptSame (passExtent P b s) (passExtent P b t) := by
  unfold passExtent
  rw [h.1, h.2.1, h.2.2.1]
  have hl := h.2.2.2.2.fields
  split
  · exact optBind_same _ (fun x => nextTag_same b h _ (SameL.mk' (by tauto)))
  · exact Or.inr ⟨_, _, rfl, rfl, h⟩

theorem passVersion_same (P : Proto) (b : Bytes) {s t : LS} (h : SameLS s t) : OptSame (passVersion P b s) (passVersion P b t) := by
  unfold passVersion
  rw [h.1, h.2.1, h.2.2.1]
  have hl := h.2.2.2.2.fields
  split
  · exact optBind_same _ (fun x => nextTag_same b h _ (SameL.mk' (by simp only; tauto)))
  · exact Or.inr ⟨_, _, rfl, rfl, h⟩

theorem layerPass_same (P : Proto) (nc : NumCodec) (b : Bytes) (n : Nat) (aw : Bool) {s t : LS} (h : SameLS s t) :
    resRel SameLS (layerPass P nc b n aw s) (layerPass P nc b n aw t) := by
  unfold layerPass
  refine resRel_bind (resRel_of (passName_same P b h)) (fun s t h => ?_)
  refine resRel_bind (whileR_rel SameLS _ _ _ _ (fun s t h => by rw [h.1, h.2.1]) (fun s t h => resRel_of (featBody_same b h)) n s t h) (fun s t h => ?_)
  refine resRel_bind (whileR_rel SameLS _ _ _ _ (fun s t h => by rw [h.1, h.2.1]) (fun s t h => resRel_of (keyBody_same b h)) n s t h) (fun s t h => ?_)
  refine resRel_bind (whileR_rel SameLS _ _ _ _ (fun s t h => by rw [h.1, h.2.1]) (fun s t h => resRel_of (valBody_same P nc b h)) n s t h) (fun s t h => ?_)
  exact resRel_bind (resRel_of (passExtent_same P b h)) (fun s t h => resRel_of (passVersion_same P b h))

/-- The layer read with any initial extent. -/
theorem newLayerFrom_same (P : Proto) (nc : NumCodec) (b : Bytes) (n : Nat) (e0 pos endpos : Int) :
    resRel (fun (l : Layer) (m : Layer × List Bytes) => SameL l m.1) (newLayerFrom P nc b n e0 pos endpos) (newLayer P nc b n false pos endpos) := by
  unfold newLayerFrom newLayer
  refine resRel_bind (resRel_refl Eq (fun _ => rfl) _) ?_
  rintro ⟨k, w, q⟩ _ rfl
  refine resRel_bind (whileR_rel SameLS _ _ _ _ (fun s t h => by rw [h.2.2.1]) (fun s t h => layerPass_same P nc b n false h) n _ _
    ⟨rfl, rfl, rfl, rfl, rfl⟩) (fun s t h => ?_)
  have hl := h.2.2.2.2.fields
  show SameL _ _
  refine SameL.mk' ?_
  split <;> split <;> simp only <;> tauto

theorem newLayerFrom_extent (P : Proto) (nc : NumCodec) (b : Bytes) (n : Nat) (e0 pos endpos : Int) (l : Layer)
    (h : newLayerFrom P nc b n e0 pos endpos = .ok l) : l.extent ≠ 0 := by
  unfold newLayerFrom at h
  obtain ⟨⟨k, w, q⟩, _, h⟩ := Res.bind_eq_ok h
  obtain ⟨st, _, h⟩ := Res.bind_eq_ok h
  simp only [Res.ok.injEq] at h
  rw [← h]
  split
  · show (4096 : Int) ≠ 0
    decide
  · assumption

/-! ### The features of a layer do not depend on its extent -/

/-- A feature without its extent. -/
def OutFeature.strip (o : OutFeature) : OutFeature := { o with extent := 0 }

theorem featLoopBody_layer (P : Proto) (b : Bytes) (skip : Int) {l m : Layer} (h : SameL l m) (st : FS) :
    featLoopBody P b skip l st = featLoopBody P b skip m st := by
  have hl := h.fields
  unfold featLoopBody
  rw [hl.2.2.1, hl.2.2.2.1]

theorem readFeatureFrom_layer (P : Proto) (b : Bytes) (late : Bool) (skip : Int) (n : Nat) {l m : Layer} (h : SameL l m) (f0 : Feature) (p : Int) :
    resRel (fun f g => { f with extent := 0 } = { g with extent := 0 }) (readFeatureFrom P b late skip n l f0 p) (readFeatureFrom P b late skip n m f0 p) := by
  unfold readFeatureFrom
  have e : (fun st => Res.of (featLoopBody P b skip l st)) = (fun st => Res.of (featLoopBody P b skip m st)) :=
    funext (fun st => by rw [featLoopBody_layer P b skip h st])
  rw [e]
  refine resRel_bind (resRel_refl Eq (fun _ => rfl) _) ?_
  rintro ⟨sz, q⟩ _ rfl
  refine resRel_bind (resRel_refl Eq (fun _ => rfl) _) ?_
  rintro st _ rfl
  rfl

theorem bulkFeatures_layer (P : Proto) (b : Bytes) (late : Bool) (skip : Int) (n : Nat) {l m : Layer} (h : SameL l m) (ps : List Int) : ∀ c : Carry,
    resRel (fun os us => os.map OutFeature.strip = us.map OutFeature.strip) (bulkFeatures P b late skip n l c ps) (bulkFeatures P b late skip n m c ps) := by
  induction ps with
  | nil => intro c; exact rfl
  | cons p ps ih =>
    intro c
    rw [bulkFeatures, bulkFeatures]
    refine resRel_bind (readFeatureFrom_layer P b late skip n h _ p) (fun f g hfg => ?_)
    obtain ⟨f1, f2, f3, f4, f5⟩ := f
    obtain ⟨g1, g2, g3, g4, g5⟩ := g
    simp only [Feature.mk.injEq, and_true] at hfg
    obtain ⟨rfl, rfl, rfl, rfl⟩ := hfg
    have e : loadGeom b ⟨f1, f2, f3, f4, f5⟩ = loadGeom b ⟨f1, f2, f3, f4, g5⟩ := rfl
    rw [e]
    refine resRel_bind (resRel_refl Eq (fun _ => rfl) _) ?_
    rintro gm _ rfl
    refine resRel_bind (ih _) (fun os us hou => ?_)
    have hl := h.fields
    show (_ :: os).map OutFeature.strip = (_ :: us).map OutFeature.strip
    simp only [List.map_cons, OutFeature.strip, hl.1]
    rw [hou]

/-- States of the two copies of the bulk loop. -/
def SameBS (s : RS) (t : BS) : Prop := s.pos = t.pos ∧ s.outs.map OutFeature.strip = t.outs.map OutFeature.strip

theorem rawBody_same (P : Proto) (nc : NumCodec) (b : Bytes) (late : Bool) (n : Nat) {s : RS} {t : BS} (h : SameBS s t) :
    resRel SameBS (rawBody P nc b late n s) (bulkBody P nc b late false 1 n t) := by
  unfold rawBody bulkBody
  rw [h.1]
  refine resRel_bind (resRel_refl Eq (fun _ => rfl) _) ?_
  rintro ⟨k, w, q⟩ _ rfl
  simp only
  by_cases hkw : k = P.layers ∧ w = 2
  · rw [if_pos hkw, if_pos hkw]
    refine resRel_bind (resRel_refl Eq (fun _ => rfl) _) ?_
    rintro ⟨size, r⟩ _ rfl
    simp only
    by_cases hs : size ≠ 0
    · rw [if_pos hs, if_pos hs]
      refine resRel_bind (newLayerFrom_same P nc b n s.extent r (r + size)) ?_
      rintro l ⟨m, ns⟩ hlm
      simp only at hlm ⊢
      have hl := hlm.fields
      rw [hl.2.2.2.2.1]
      refine resRel_bind (bulkFeatures_layer P b late 1 n hlm m.features _) (fun os us hou => ?_)
      refine ⟨rfl, ?_⟩
      simp only [List.map_append]
      rw [h.2, hou]
    · rw [if_neg hs, if_neg hs]
      exact ⟨rfl, h.2⟩
  · rw [if_neg hkw, if_neg hkw]
    exact ⟨rfl, h.2⟩

end Verif.Mvt
