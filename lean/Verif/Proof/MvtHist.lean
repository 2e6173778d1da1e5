import Verif.Proof.MvtDict
import Verif.Proof.MvtFeature

/-! # Lemmas about histories of calls on a written layer -/
namespace Verif.Mvt
open Verif.Go Verif.Pbf

theorem Call.run_getTags (P : Proto) (c : Call) (l l' : LayerWrite) (h : c.run P l = some l') :
    ∃ l1 ts, getTags l c.props = some (l1, ts) ∧ l'.keys = l1.keys ∧ l'.values = l1.values ∧ l'.keysMap = l1.keysMap ∧ l'.valuesMap = l1.valuesMap := by
  cases c with
  | tags ps =>
    simp only [Call.run] at h
    cases h1 : getTags l ps with
    | none => simp [h1] at h
    | some x =>
      obtain ⟨l1, ts⟩ := x
      simp [h1] at h
      exact ⟨l1, ts, h1, by simp [h], by simp [h], by simp [h], by simp [h]⟩
  | addRaw id t g ps =>
    simp only [Call.run, addFeatureRaw] at h
    cases h1 : getTags l ps with
    | none => simp [h1] at h
    | some x =>
      obtain ⟨l1, ts⟩ := x
      simp only [h1, Option.map_some, Option.some.injEq] at h
      exact ⟨l1, ts, h1, by simp [← h], by simp [← h], by simp [← h], by simp [← h]⟩
  | add id t ws ps =>
    simp only [Call.run, addFeature] at h
    cases h1 : getTags l ps with
    | none => cases id <;> simp [h1] at h
    | some x =>
      obtain ⟨l1, ts⟩ := x
      refine ⟨l1, ts, h1, ?_⟩
      cases id <;> simp [h1] at h <;> simp [← h]
  | addBare id co ps =>
    simp only [Call.run, addFeatureBare] at h
    cases h1 : getTags l ps with
    | none => cases id <;> simp [h1] at h
    | some x =>
      obtain ⟨l1, ts⟩ := x
      refine ⟨l1, ts, h1, ?_⟩
      cases id <;> simp [h1] at h <;> simp [← h]

theorem DictOk.congr {l l' : LayerWrite} (h : DictOk l) (h1 : l'.keys = l.keys) (h2 : l'.values = l.values) (h3 : l'.keysMap = l.keysMap)
    (h4 : l'.valuesMap = l.valuesMap) : DictOk l' :=
  ⟨by rw [h3, h1]; exact h.keysMap, by rw [h4, h2]; exact h.valuesMap, by rw [h1]; exact h.nodup, by rw [h2]; exact h.distinct⟩

/-- The tables of `l'` extend those of `l`. -/
def Grows (l l' : LayerWrite) : Prop := l.keys <+: l'.keys ∧ l.values <+: l'.values

theorem Grows.trans {a b c : LayerWrite} (h : Grows a b) (h' : Grows b c) : Grows a c := ⟨h.1.trans h'.1, h.2.trans h'.2⟩

theorem Grows.fits {a b : LayerWrite} (h : Grows a b) (hf : Fits32 b) : Fits32 a :=
  ⟨h.1.length_le.trans hf.1, h.2.length_le.trans hf.2⟩

theorem TagsFor.grow {l l' : LayerWrite} (h : Grows l l') {ts : List Nat} {ps : List (Bytes × GoVal)} (ht : TagsFor l ts ps) :
    TagsFor l' ts ps := by
  induction ht with
  | nil => exact .nil
  | cons hr _ ih =>
    obtain ⟨h1, w, h2, h3⟩ := hr
    exact .cons ⟨prefix_getElem? h.1 h1, w, prefix_getElem? h.2 h2, h3⟩ ih

theorem Call.run_grows (P : Proto) (c : Call) (l l' : LayerWrite) (h : c.run P l = some l') : Grows l l' := by
  obtain ⟨l1, ts, h1, hk, hv, _, _⟩ := Call.run_getTags P c l l' h
  have := getTags_ext _ _ _ _ h1
  exact ⟨by rw [hk]; exact this.1, by rw [hv]; exact this.2.1⟩

theorem runCalls_grows (P : Proto) (cs : List Call) : ∀ l l', runCalls P l cs = some l' → Grows l l' := by
  induction cs with
  | nil => intro l l' h; simp [runCalls] at h; subst h; exact ⟨List.prefix_refl _, List.prefix_refl _⟩
  | cons c cs ih =>
    intro l l' h
    rw [runCalls] at h
    cases h1 : c.run P l with
    | none => simp [h1] at h
    | some l1 =>
      simp only [h1, Option.bind_some] at h
      exact (Call.run_grows P c l l1 h1).trans (ih l1 l' h)

theorem Call.run_ok (P : Proto) (c : Call) (l l' : LayerWrite) (hd : DictOk l) (h : c.run P l = some l') (hf : Fits32 l') : DictOk l' := by
  obtain ⟨l1, ts, h1, hk, hv, hkm, hvm⟩ := Call.run_getTags P c l l' h
  have hf1 : Fits32 l1 := by unfold Fits32 at hf ⊢; rw [← hk, ← hv]; exact hf
  exact (getTags_ok _ _ _ _ hd h1 hf1).1.congr hk hv hkm hvm

theorem runCalls_ok (P : Proto) (cs : List Call) : ∀ l l', DictOk l → runCalls P l cs = some l' → Fits32 l' → DictOk l' := by
  induction cs with
  | nil => intro l l' hd h hf; simp [runCalls] at h; subst h; exact hd
  | cons c cs ih =>
    intro l l' hd h hf
    rw [runCalls] at h
    cases h1 : c.run P l with
    | none => simp [h1] at h
    | some l1 =>
      simp only [h1, Option.bind_some] at h
      exact ih l1 l' (Call.run_ok P c l l1 hd h1 ((runCalls_grows P cs l1 l' h).fits hf)) h hf

theorem runCalls_append (P : Proto) (as bs : List Call) : ∀ l, runCalls P l (as ++ bs) = (runCalls P l as).bind fun l => runCalls P l bs := by
  induction as with
  | nil => intro l; rfl
  | cons a as ih =>
    intro l
    rw [List.cons_append, runCalls, runCalls]
    cases h1 : a.run P l with
    | none => rfl
    | some l1 => simp only [Option.bind_some]; exact ih l1

theorem new_ok (name : Bytes) : DictOk (LayerWrite.new name) :=
  ⟨rfl, rfl, List.nodup_nil, List.Pairwise.nil⟩

theorem newConfig_ok (name : Bytes) (e v : Nat) : DictOk (LayerWrite.newConfig name e v) :=
  ⟨rfl, rfl, List.nodup_nil, List.Pairwise.nil⟩

theorem TagsFor.at {l : LayerWrite} {ts : List Nat} {ps : List (Bytes × GoVal)} (h : TagsFor l ts ps) :
    ts.length = 2 * ps.length ∧ ∀ i k v, ps[i]? = some (k, v) →
      ∃ ti tj w, ts[2 * i]? = some ti ∧ ts[2 * i + 1]? = some tj ∧ l.keys[ti]? = some k ∧ l.values[tj]? = some w ∧ (w = v ∨ goEq w v = true) := by
  induction h with
  | nil => simp
  | @cons i j ts k v ps hr _ ih =>
    refine ⟨by simp [ih.1]; omega, ?_⟩
    intro n k' v' hn
    cases n with
    | zero =>
      simp at hn
      obtain ⟨rfl, rfl⟩ := hn
      obtain ⟨h1, w, h2, h3⟩ := hr
      exact ⟨i, j, w, by simp, by simp, h1, h2, h3⟩
    | succ n =>
      simp at hn
      obtain ⟨ti, tj, w, h1, h2, h3⟩ := ih.2 n k' v' hn
      refine ⟨ti, tj, w, ?_, ?_, h3⟩
      · rw [show 2 * (n + 1) = 2 * n + 1 + 1 by ring]; simpa using h1
      · rw [show 2 * (n + 1) + 1 = 2 * n + 1 + 1 + 1 by ring]; simpa using h2

theorem tagPair_mem (l : LayerWrite) (k : Bytes) (v : GoVal) (l' : LayerWrite) (i j : Nat) (e : tagPair l k v = some (l', i, j)) :
    (∀ x ∈ l'.keys, x ∈ l.keys ∨ x = k) ∧ (∀ x ∈ l'.values, x ∈ l.values ∨ x = v) := by
  unfold tagPair at e
  split at e
  · simp at e
  · simp at e
    obtain ⟨rfl, rfl, rfl⟩ := e
    have hk : (∀ x ∈ (keyTag l k).1.keys, x ∈ l.keys ∨ x = k) ∧ (keyTag l k).1.values = l.values := by
      unfold keyTag; split
      · exact ⟨fun x h => Or.inl h, rfl⟩
      · simp [addKey]
    have hv : ∀ m : LayerWrite, (∀ x ∈ (valTag m v).1.values, x ∈ m.values ∨ x = v) ∧ (valTag m v).1.keys = m.keys := by
      intro m; unfold valTag; split
      · exact ⟨fun x h => Or.inl h, rfl⟩
      · simp [addValue]
    refine ⟨?_, ?_⟩
    · rw [(hv _).2]; exact hk.1
    · intro x hx
      have := (hv _).1 x hx
      rwa [hk.2] at this

theorem getTags_mem (ps : List (Bytes × GoVal)) : ∀ (l l' : LayerWrite) (ts : List Nat), getTags l ps = some (l', ts) →
    (∀ x ∈ l'.keys, x ∈ l.keys ∨ x ∈ ps.map (·.1)) ∧ (∀ x ∈ l'.values, x ∈ l.values ∨ x ∈ ps.map (·.2)) := by
  induction ps with
  | nil => intro l l' ts e; simp [getTags] at e; rw [← e.1]; exact ⟨fun x h => Or.inl h, fun x h => Or.inl h⟩
  | cons p ps ih =>
    obtain ⟨k, v⟩ := p
    intro l l' ts e
    rw [getTags] at e
    cases h1 : tagPair l k v with
    | none => simp [h1] at e
    | some x =>
      obtain ⟨l1, i, j⟩ := x
      simp only [h1, Option.bind_some] at e
      cases h2 : getTags l1 ps with
      | none => simp [h2] at e
      | some y =>
        obtain ⟨l2, t2⟩ := y
        simp [h2] at e
        rw [← e.1]
        have a := tagPair_mem l k v l1 i j h1
        have b := ih l1 l2 t2 h2
        refine ⟨fun x hx => ?_, fun x hx => ?_⟩
        · rcases b.1 x hx with h | h
          · rcases a.1 x h with h | h
            · exact Or.inl h
            · exact Or.inr (by simp [h])
          · exact Or.inr (List.mem_cons_of_mem _ h)
        · rcases b.2 x hx with h | h
          · rcases a.2 x h with h | h
            · exact Or.inl h
            · exact Or.inr (by simp [h])
          · exact Or.inr (List.mem_cons_of_mem _ h)

theorem runCalls_mem (P : Proto) (cs : List Call) : ∀ l l', runCalls P l cs = some l' →
    (∀ x ∈ l'.keys, x ∈ l.keys ∨ ∃ c ∈ cs, ∃ v, (x, v) ∈ c.props) ∧ (∀ x ∈ l'.values, x ∈ l.values ∨ ∃ c ∈ cs, ∃ k, (k, x) ∈ c.props) := by
  induction cs with
  | nil => intro l l' h; simp [runCalls] at h; subst h; exact ⟨fun x h => Or.inl h, fun x h => Or.inl h⟩
  | cons c cs ih =>
    intro l l' h
    rw [runCalls] at h
    cases h1 : c.run P l with
    | none => simp [h1] at h
    | some l1 =>
      simp only [h1, Option.bind_some] at h
      obtain ⟨l2, ts, h2, hk, hv, _, _⟩ := Call.run_getTags P c l l1 h1
      have a := getTags_mem _ _ _ _ h2
      have b := ih l1 l' h
      rw [hk, hv] at b
      refine ⟨fun x hx => ?_, fun x hx => ?_⟩
      · rcases b.1 x hx with h | ⟨d, hd, h⟩
        · rcases a.1 x h with h | h
          · exact Or.inl h
          · simp at h; exact Or.inr ⟨c, by simp, h⟩
        · exact Or.inr ⟨d, by simp [hd], h⟩
      · rcases b.2 x hx with h | ⟨d, hd, h⟩
        · rcases a.2 x h with h | h
          · exact Or.inl h
          · simp at h; exact Or.inr ⟨c, by simp, h⟩
        · exact Or.inr ⟨d, by simp [hd], h⟩

theorem getTags_none (ps : List (Bytes × GoVal)) : ∀ l, getTags l ps = none ↔ ∃ k, (k, GoVal.unhashable) ∈ ps := by
  induction ps with
  | nil => intro l; simp [getTags]
  | cons p ps ih =>
    obtain ⟨k, v⟩ := p
    intro l
    rw [getTags]
    by_cases hv : v = .unhashable
    · simp [tagPair, hv]
    · have hv' : GoVal.unhashable ≠ v := fun h => hv h.symm
      simp [tagPair, hv, hv', ih]

/-- The feature a call writes with tags `ts`. -/
def Call.feature (c : Call) (ts : List Nat) : WFeature :=
  match c with
  | .tags _ => ⟨none, [], none, none⟩
  | .addRaw id t g _ => ⟨if id > 0 then some (u64 id) else none, ts, if t ≠ 0 then some t else none, if g.length > 0 then some g else none⟩
  | .add id t ws _ => ⟨match id with | .int v => some (u64 v) | _ => none, ts, some t, some ws⟩
  | .addBare id co _ => ⟨match id with | .int v => some (u64 v) | _ => none, ts, if co then some 0 else none, none⟩

theorem Call.run_features (P : Proto) (c : Call) (l l' : LayerWrite) (hd : DictOk l) (h : c.run P l = some l') (hf : Fits32 l') :
    l'.name = l.name ∧ l'.extent = l.extent ∧ l'.version = l.version ∧
    ∃ ts, TagsFor l' ts c.props ∧ l'.features = l.features ++ (if c.isAdd then [encFeature P (c.feature ts)] else []) := by
  obtain ⟨l1, ts, h1, hk, hv, hkm, hvm⟩ := Call.run_getTags P c l l' h
  have hf1 : Fits32 l1 := by unfold Fits32 at hf ⊢; rw [← hk, ← hv]; exact hf
  have hx := getTags_ext _ _ _ _ h1
  have ht : TagsFor l' ts c.props := (getTags_ok _ _ _ _ hd h1 hf1).2.grow ⟨by rw [hk]; exact List.prefix_refl _, by rw [hv]; exact List.prefix_refl _⟩
  obtain ⟨_, _, e1, e2, e3, e4⟩ := hx
  cases c with
  | tags ps =>
    simp only [Call.props] at h1 ht
    simp [Call.run, h1] at h
    subst h
    exact ⟨e2, e3, e4, ts, ht, by simp [Call.isAdd, e1]⟩
  | addRaw id t g ps =>
    simp only [Call.props] at h1 ht
    simp only [Call.run, addFeatureRaw, h1, Option.map_some, Option.some.injEq] at h
    rw [← h]
    refine ⟨e2, e3, e4, ts, by rw [h]; exact ht, ?_⟩
    simp only [Call.isAdd, if_true, Call.feature, e1]
  | add id t ws ps =>
    simp only [Call.props] at h1 ht
    cases id with
    | uint v => simp [Call.run, addFeature] at h
    | none =>
      simp only [Call.run, addFeature, h1, Option.map_some, Option.bind_some, Option.some.injEq] at h
      rw [← h]
      exact ⟨e2, e3, e4, ts, by rw [h]; exact ht, by simp only [Call.isAdd, if_true, Call.feature, e1]⟩
    | int v =>
      simp only [Call.run, addFeature, h1, Option.map_some, Option.bind_some, Option.some.injEq] at h
      rw [← h]
      exact ⟨e2, e3, e4, ts, by rw [h]; exact ht, by simp only [Call.isAdd, if_true, Call.feature, e1]⟩
    | other =>
      simp only [Call.run, addFeature, h1, Option.map_some, Option.bind_some, Option.some.injEq] at h
      rw [← h]
      exact ⟨e2, e3, e4, ts, by rw [h]; exact ht, by simp only [Call.isAdd, if_true, Call.feature, e1]⟩
  | addBare id co ps =>
    simp only [Call.props] at h1 ht
    cases id with
    | uint v => simp [Call.run, addFeatureBare] at h
    | none =>
      simp only [Call.run, addFeatureBare, h1, Option.map_some, Option.bind_some, Option.some.injEq] at h
      rw [← h]
      exact ⟨e2, e3, e4, ts, by rw [h]; exact ht, by simp only [Call.isAdd, if_true, Call.feature, e1]⟩
    | int v =>
      simp only [Call.run, addFeatureBare, h1, Option.map_some, Option.bind_some, Option.some.injEq] at h
      rw [← h]
      exact ⟨e2, e3, e4, ts, by rw [h]; exact ht, by simp only [Call.isAdd, if_true, Call.feature, e1]⟩
    | other =>
      simp only [Call.run, addFeatureBare, h1, Option.map_some, Option.bind_some, Option.some.injEq] at h
      rw [← h]
      exact ⟨e2, e3, e4, ts, by rw [h]; exact ht, by simp only [Call.isAdd, if_true, Call.feature, e1]⟩

theorem runCalls_features (P : Proto) (cs : List Call) : ∀ l l', DictOk l → runCalls P l cs = some l' → Fits32 l' →
    l'.name = l.name ∧ l'.extent = l.extent ∧ l'.version = l.version ∧
    ∃ fs : List WFeature, l'.features = l.features ++ fs.map (encFeature P) ∧
      List.Forall₂ (fun c f => ∃ ts, TagsFor l' ts c.props ∧ f = Call.feature c ts) (cs.filter (·.isAdd)) fs := by
  induction cs with
  | nil => intro l l' hd h hf; simp [runCalls] at h; subst h; exact ⟨rfl, rfl, rfl, [], by simp, by simp⟩
  | cons c cs ih =>
    intro l l' hd h hf
    rw [runCalls] at h
    cases h1 : c.run P l with
    | none => simp [h1] at h
    | some l1 =>
      simp only [h1, Option.bind_some] at h
      have hg := runCalls_grows P cs l1 l' h
      have hf1 := hg.fits hf
      obtain ⟨n1, n2, n3, ts, ht, hfe⟩ := Call.run_features P c l l1 hd h1 hf1
      obtain ⟨m1, m2, m3, fs, hfs, hrel⟩ := ih l1 l' (Call.run_ok P c l l1 hd h1 hf1) h hf
      refine ⟨m1.trans n1, m2.trans n2, m3.trans n3, ?_⟩
      by_cases ha : c.isAdd = true
      · refine ⟨c.feature ts :: fs, ?_, ?_⟩
        · rw [hfs, hfe]; simp [ha]
        · rw [List.filter_cons_of_pos ha]
          exact .cons ⟨ts, ht.grow hg, rfl⟩ hrel
      · refine ⟨fs, ?_, ?_⟩
        · rw [hfs, hfe]; simp [ha]
        · rw [List.filter_cons_of_neg ha]; exact hrel

theorem goEq_stored (w v : GoVal) (h : w = v ∨ goEq w v = true) : ReadAs v (stored w) := by
  rcases h with rfl | h
  · exact Or.inl rfl
  cases w <;> cases v <;> simp only [goEq, Bool.false_eq_true] at h
  · left; simp at h; simp [stored, h]
  · left; simp at h; simp [stored, h]
  · rename_i a b
    simp only [floatEq, decide_eq_true_eq] at h
    obtain ⟨_, _, h | ⟨h1, h2⟩⟩ := h
    · left; simp [stored, h]
    · right; left; exact ⟨b, a, by simpa [zero32] using h2, by simpa [zero32] using h1, rfl, rfl⟩
  · rename_i a b
    simp only [floatEq, decide_eq_true_eq] at h
    obtain ⟨_, _, h | ⟨h1, h2⟩⟩ := h
    · left; simp [stored, h]
    · right; right; exact ⟨b, a, by simpa [zero64] using h2, by simpa [zero64] using h1, rfl, rfl⟩
  · left; simp at h; simp [stored, h.2]
  · left; simp at h; simp [stored, h.2]
  · left; rfl

theorem TagsFor.resolve {l : LayerWrite} {ts : List Nat} {ps : List (Bytes × GoVal)} (h : TagsFor l ts ps) :
    ∃ r, resolveTags l.keys (l.values.map stored) ts = some r ∧
      List.Forall₂ (fun (p : Bytes × GoVal) (x : Bytes × Val) => x.1 = p.1 ∧ ReadAs p.2 x.2) ps r := by
  induction h with
  | nil => exact ⟨[], rfl, .nil⟩
  | @cons i j ts k v ps hr _ ih =>
    obtain ⟨r, h1, h2⟩ := ih
    obtain ⟨h3, w, h4, h5⟩ := hr
    refine ⟨(k, stored w) :: r, ?_, .cons ⟨rfl, goEq_stored w v h5⟩ h2⟩
    simp [resolveTags, h1, h3, h4]

theorem TagsFor.lt {l : LayerWrite} (hf : Fits32 l) {ts : List Nat} {ps : List (Bytes × GoVal)} (h : TagsFor l ts ps) :
    ∀ t ∈ ts, t < 4294967296 := by
  induction h with
  | nil => simp
  | @cons i j ts k v ps hr _ ih =>
    obtain ⟨h3, w, h4, h5⟩ := hr
    have a1 : i < l.keys.length := by
      by_contra hc; rw [List.getElem?_eq_none (by omega)] at h3; simp at h3
    have a2 : j < l.values.length := by
      by_contra hc; rw [List.getElem?_eq_none (by omega)] at h4; simp at h4
    have b1 := hf.1
    have b2 := hf.2
    intro t ht
    simp at ht
    rcases ht with rfl | rfl | ht
    · omega
    · omega
    · exact ih t ht

theorem i64_u64 (x : Int) (h : IsI64 x) : i64 (u64 x : Nat) = x := by
  unfold IsI64 at h
  unfold i64 u64
  rw [Int.toNat_of_nonneg (Int.emod_nonneg _ (by norm_num)), Int.bmod_def]
  split <;> omega

/-- Reading the feature of one call, from carried values `f0`. -/
theorem callFeature_at (P : Proto) (hP : P.Good) (b : Bytes) (late : Bool) (skip : Int) (hskip : 0 ≤ skip) (n : Nat) (l : LayerWrite) (L : Layer) (f0 : Feature)
    (hf0 : f0.props = []) (hL : L.keys = l.keys ∧ L.values = l.values.map stored) (p : Int) (c : Call) (hadd : c.isAdd = true) (hc : c.Ok) (ts : List Nat)
    (ht : TagsFor l ts c.props) (hf32 : Fits32 l) (hfit : Fits (encFeature P (c.feature ts)))
    (hlate : late = true ∨ 8 ≤ c.expGeom.length) (hn : 5 ≤ n) (h : FeatAt b p (encFeature P (c.feature ts))) :
    ∃ f, readFeatureFrom P b late skip n L f0 p = .ok f ∧
      (c.expGeom ≠ [] → f.geometryPos = geomPosOf P p (c.feature ts) 0 ∧ 0 < f.geometryPos) ∧
      (∃ r, resolveTags l.keys (l.values.map stored) ts = some r ∧ f.props = r) ∧
      f.id = (if c.expId = 0 ∧ (c.feature ts).id = none then f0.id else c.expId) ∧
      f.geomInt = (if (c.feature ts).type = none then f0.geomInt else c.expType) ∧ f.extent = L.extent ∧
      List.Forall₂ (fun (p : Bytes × GoVal) (x : Bytes × Val) => x.1 = p.1 ∧ ReadAs p.2 x.2) c.props f.props ∧
      (c.expGeom ≠ [] → loadRaw b f = some c.expGeom) ∧ ((c.feature ts).geometry = none → f.geometryPos = f0.geometryPos) := by
  obtain ⟨r, hr, hrel⟩ := ht.resolve
  have hft : (c.feature ts).tags = ts := by cases c <;> first | rfl | simp [Call.isAdd] at hadd
  obtain ⟨hid, hty, hge, _⟩ := hc
  have hok : FeatOk P (c.feature ts) := by
    refine ⟨?_, by rw [hft]; exact ht.lt hf32, ?_, ?_, hfit⟩
    · intro i hi
      have hu : ∀ v : Int, u64 v < 18446744073709551616 := fun v => by unfold u64; omega
      cases c with
      | tags ps => simp [Call.feature] at hi
      | addRaw id t g ps => simp only [Call.feature] at hi; split at hi <;> simp at hi; rw [← hi]; exact hu _
      | add id t ws ps => cases id <;> simp [Call.feature] at hi; rw [← hi]; exact hu _
      | addBare id co ps => cases id <;> simp [Call.feature] at hi; rw [← hi]; exact hu _
    · intro i hi
      cases c with
      | tags ps => simp [Call.feature] at hi
      | addRaw id t g ps => simp only [Call.feature] at hi; split at hi <;> simp at hi; rw [← hi]; exact hty
      | add id t ws ps => simp [Call.feature] at hi; rw [← hi]; exact hty
      | addBare id co ps => simp only [Call.feature] at hi; split at hi <;> simp at hi; rw [← hi]; exact hty
    · intro i hi
      cases c with
      | tags ps => simp [Call.feature] at hi
      | addRaw id t g ps => simp only [Call.feature] at hi; split at hi <;> simp at hi; rw [← hi]; exact hge
      | add id t ws ps => simp [Call.feature] at hi; rw [← hi]; exact hge
      | addBare id co ps => simp [Call.feature] at hi
  have hgeo : c.expGeom ≠ [] → (c.feature ts).geometry = some c.expGeom := by
    intro hne
    cases c with
    | tags ps => simp [Call.isAdd] at hadd
    | addRaw id t g ps =>
      have : g.length > 0 := List.length_pos_iff.mpr hne
      simp [Call.feature, Call.expGeom, List.length_pos_iff.mp this]
    | add id t ws ps => rfl
    | addBare id co ps => exact absurd rfl hne
  obtain ⟨e, hgp⟩ := readFrom_at P hP b late skip hskip n L f0 hf0 p (c.feature ts) hok r (by rw [hL.1, hL.2, hft]; exact hr)
    (by
      rcases hlate with h1 | h1
      · exact Or.inl h1
      · exact Or.inr ⟨c.expGeom, hgeo (by intro h0; rw [h0] at h1; simp at h1), h1⟩) hn h
  refine ⟨_, e, ?_, ⟨r, hr, rfl⟩, ?_, ?_, rfl, hrel, ?_, ?_⟩
  · intro hne
    refine ⟨?_, (hgp _ (hgeo hne)).2⟩
    simp only [geomPosOf, hgeo hne]
  · simp only
    cases c with
    | tags ps => simp [Call.isAdd] at hadd
    | addRaw id t g ps =>
      by_cases h0 : id > 0
      · have hu := i64_u64 id hid
        have e1 : (Call.addRaw id t g ps).expId = id := if_pos h0
        have e2 : ((Call.addRaw id t g ps).feature ts).id = some (u64 id) := if_pos h0
        rw [e1, e2, Option.map_some, Option.getD_some, hu, if_neg (by simp)]
      · have e1 : (Call.addRaw id t g ps).expId = 0 := if_neg h0
        have e2 : ((Call.addRaw id t g ps).feature ts).id = none := if_neg h0
        rw [e1, e2, Option.map_none, Option.getD_none, if_pos ⟨rfl, rfl⟩]
    | add id t ws ps =>
      cases id with
      | int v =>
        have hu := i64_u64 v hid
        have e1 : (Call.add (.int v) t ws ps).expId = v := rfl
        have e2 : ((Call.add (.int v) t ws ps).feature ts).id = some (u64 v) := rfl
        rw [e1, e2, Option.map_some, Option.getD_some, hu, if_neg (by simp)]
      | none => simp [Call.feature, Call.expId]
      | uint v => simp [Call.feature, Call.expId]
      | other => simp [Call.feature, Call.expId]
    | addBare id co ps =>
      cases id with
      | int v =>
        have hu := i64_u64 v hid
        have e1 : (Call.addBare (.int v) co ps).expId = v := rfl
        have e2 : ((Call.addBare (.int v) co ps).feature ts).id = some (u64 v) := rfl
        rw [e1, e2, Option.map_some, Option.getD_some, hu, if_neg (by simp)]
      | none => simp [Call.feature, Call.expId]
      | uint v => simp [Call.feature, Call.expId]
      | other => simp [Call.feature, Call.expId]
  · simp only
    cases c with
    | tags ps => simp [Call.isAdd] at hadd
    | addRaw id t g ps => by_cases h0 : t = 0 <;> simp [Call.feature, Call.expType, h0]
    | add id t ws ps => simp [Call.feature, Call.expType]
    | addBare id co ps => cases co <;> simp [Call.feature, Call.expType]
  · intro hne
    exact (hgp _ (hgeo hne)).1
  · intro hnone
    simp only [geomPosOf, hnone]

end Verif.Mvt
