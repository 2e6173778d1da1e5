import Verif.Model.MvtLayer
import Mathlib.Data.List.Basic
import Mathlib.Tactic.Linarith

/-! # Lemmas about the key and value tables -/
namespace Verif.Mvt
open Verif.Go Verif.Pbf

/-- Entries of `xs` numbered from `i`. -/
def number {α : Type} : Nat → List α → List (α × Nat)
  | _, [] => []
  | i, x :: xs => (x, i) :: number (i + 1) xs

theorem number_length {α : Type} (i : Nat) (xs : List α) : (number i xs).length = xs.length := by
  induction xs generalizing i with
  | nil => rfl
  | cons x xs ih => simp [number, ih]

theorem number_append {α : Type} (i : Nat) (xs : List α) (x : α) : number i (xs ++ [x]) = number i xs ++ [(x, i + xs.length)] := by
  induction xs generalizing i with
  | nil => simp [number]
  | cons y ys ih => simp [number, ih]; omega

theorem number_find {α : Type} (q : α → Bool) (xs : List α) (i : Nat) :
    (∀ j, ((number i xs).find? (fun e => q e.1)).map (·.2) = some j → i ≤ j ∧ ∃ w, xs[j - i]? = some w ∧ q w = true) ∧
    (((number i xs).find? (fun e => q e.1)).map (·.2) = none → ∀ w ∈ xs, q w = false) := by
  induction xs generalizing i with
  | nil => simp [number]
  | cons x xs ih =>
    unfold number
    by_cases h : q x = true
    · simp only [List.find?_cons, h]
      constructor
      · intro j hj; simp at hj; subst hj; exact ⟨le_rfl, x, by simp, h⟩
      · simp
    · have h' : q x = false := by simpa using h
      simp only [List.find?_cons, h']
      obtain ⟨h1, h2⟩ := ih (i + 1)
      constructor
      · intro j hj
        obtain ⟨h3, w, h4, h5⟩ := h1 j hj
        refine ⟨by omega, w, ?_, h5⟩
        obtain ⟨k, rfl⟩ : ∃ k, j = i + 1 + k := ⟨j - (i + 1), by omega⟩
        rw [show i + 1 + k - i = k + 1 by omega, List.getElem?_cons_succ]
        simpa using h4
      · intro hn w hw
        rcases List.mem_cons.mp hw with rfl | hw
        · exact h'
        · exact h2 hn w hw

/-- The tables are consistent. -/
structure DictOk (l : LayerWrite) : Prop where
  keysMap : l.keysMap = number 0 l.keys
  valuesMap : l.valuesMap = number 0 l.values
  nodup : l.keys.Nodup
  distinct : l.values.Pairwise (fun w v => goEq w v = false)

/-- Index pair `(i, j)` stands for property `(k, v)` in the tables of `l`. -/
def Resolves (l : LayerWrite) (i j : Nat) (k : Bytes) (v : GoVal) : Prop :=
  l.keys[i]? = some k ∧ ∃ w, l.values[j]? = some w ∧ (w = v ∨ goEq w v = true)

/-- The tables of `l'` extend those of `l`; nothing else changed. -/
def Extends (l l' : LayerWrite) : Prop :=
  l.keys <+: l'.keys ∧ l.values <+: l'.values ∧ l'.features = l.features ∧ l'.name = l.name ∧ l'.extent = l.extent ∧ l'.version = l.version

theorem Extends.refl (l : LayerWrite) : Extends l l := ⟨List.prefix_refl _, List.prefix_refl _, rfl, rfl, rfl, rfl⟩

theorem Extends.trans {a b c : LayerWrite} (h : Extends a b) (h' : Extends b c) : Extends a c :=
  ⟨h.1.trans h'.1, h.2.1.trans h'.2.1, h'.2.2.1.trans h.2.2.1, h'.2.2.2.1.trans h.2.2.2.1, h'.2.2.2.2.1.trans h.2.2.2.2.1,
    h'.2.2.2.2.2.trans h.2.2.2.2.2⟩

theorem prefix_getElem? {α : Type} {a b : List α} (h : a <+: b) {i : Nat} {x : α} (hx : a[i]? = some x) : b[i]? = some x := by
  obtain ⟨t, rfl⟩ := h
  have : i < a.length := by
    by_contra hc; rw [List.getElem?_eq_none (by omega)] at hx; simp at hx
  rw [List.getElem?_append_left this]; exact hx

theorem Resolves.mono {l l' : LayerWrite} (h : Extends l l') {i j : Nat} {k : Bytes} {v : GoVal} (hr : Resolves l i j k v) :
    Resolves l' i j k v := by
  obtain ⟨h1, w, h2, h3⟩ := hr
  exact ⟨prefix_getElem? h.1 h1, w, prefix_getElem? h.2.1 h2, h3⟩

theorem addKey_ok (l : LayerWrite) (k : Bytes) (h : DictOk l) (hb : l.keys.length < 4294967296) (hnot : lookupKey l.keysMap k = none) :
    DictOk (addKey l k).1 ∧ (addKey l k).1.keys[(addKey l k).2]? = some k ∧ Extends l (addKey l k).1 ∧ (addKey l k).1.values = l.values := by
  have e : l.keysMap.length % 4294967296 = l.keys.length := by
    rw [h.keysMap, number_length, Nat.mod_eq_of_lt hb]
  unfold addKey
  simp only [e]
  refine ⟨⟨?_, h.valuesMap, ?_, h.distinct⟩, by simp, ⟨List.prefix_append _ _, List.prefix_refl _, rfl, rfl, rfl, rfl⟩, trivial⟩
  · simp only; rw [number_append, h.keysMap]; simp
  · simp only
    rw [List.nodup_append]
    refine ⟨h.nodup, by simp, ?_⟩
    intro a ha b hb2
    simp at hb2; subst hb2
    have := (number_find (fun x => decide (x = b)) l.keys 0).2 (by
      have := hnot; unfold lookupKey at this; rw [h.keysMap] at this; exact this) a ha
    simpa using this

theorem addValue_ok (l : LayerWrite) (v : GoVal) (h : DictOk l) (hb : l.values.length < 4294967296) (hnot : lookupVal l.valuesMap v = none) :
    DictOk (addValue l v).1 ∧ (addValue l v).1.values[(addValue l v).2]? = some v ∧ Extends l (addValue l v).1 ∧ (addValue l v).1.keys = l.keys := by
  have e : l.valuesMap.length % 4294967296 = l.values.length := by
    rw [h.valuesMap, number_length, Nat.mod_eq_of_lt hb]
  unfold addValue
  simp only [e]
  refine ⟨⟨h.keysMap, ?_, h.nodup, ?_⟩, by simp, ⟨List.prefix_refl _, List.prefix_append _ _, rfl, rfl, rfl, rfl⟩, trivial⟩
  · simp only; rw [number_append, h.valuesMap]; simp
  · simp only
    rw [List.pairwise_append]
    refine ⟨h.distinct, by simp, ?_⟩
    intro a ha b hb2
    simp at hb2; subst hb2
    exact (number_find (fun x => goEq x b) l.values 0).2 (by
      have := hnot; unfold lookupVal at this; rw [h.valuesMap] at this; exact this) a ha

/-- Table sizes below 2^32. -/
def Fits32 (l : LayerWrite) : Prop := l.keys.length ≤ 4294967296 ∧ l.values.length ≤ 4294967296

theorem Fits32.anti {l l' : LayerWrite} (h : Extends l l') (hf : Fits32 l') : Fits32 l :=
  ⟨h.1.length_le.trans hf.1, h.2.1.length_le.trans hf.2⟩

theorem keyStep_ext (l : LayerWrite) (k : Bytes) :
    Extends l (keyTag l k).1 := by
  unfold keyTag; split
  · exact Extends.refl l
  · exact ⟨List.prefix_append _ _, List.prefix_refl _, rfl, rfl, rfl, rfl⟩

theorem keyStep_ok (l : LayerWrite) (k : Bytes) (h : DictOk l)
    (hf : Fits32 (keyTag l k).1) :
    DictOk (keyTag l k).1 ∧
      (keyTag l k).1.keys[(keyTag l k).2]? = some k := by
  unfold keyTag at hf ⊢
  cases hlk : lookupKey l.keysMap k with
  | some i =>
    simp only
    refine ⟨h, ?_⟩
    have := (number_find (fun x => decide (x = k)) l.keys 0).1 i (by
      have := hlk; unfold lookupKey at this; rw [h.keysMap] at this; exact this)
    obtain ⟨_, w, h1, h2⟩ := this
    simp at h1 h2
    rw [h1, h2]
  | none =>
    rw [hlk] at hf
    have hb : l.keys.length < 4294967296 := by
      have := hf.1; simp [addKey] at this; omega
    exact ⟨(addKey_ok l k h hb hlk).1, (addKey_ok l k h hb hlk).2.1⟩

theorem valStep_ext (l : LayerWrite) (v : GoVal) :
    Extends l (valTag l v).1 := by
  unfold valTag; split
  · exact Extends.refl l
  · exact ⟨List.prefix_refl _, List.prefix_append _ _, rfl, rfl, rfl, rfl⟩

theorem valStep_ok (l : LayerWrite) (v : GoVal) (h : DictOk l)
    (hf : Fits32 (valTag l v).1) :
    DictOk (valTag l v).1 ∧
      ∃ w, (valTag l v).1.values[(valTag l v).2]? = some w ∧
        (w = v ∨ goEq w v = true) := by
  unfold valTag at hf ⊢
  cases hlk : lookupVal l.valuesMap v with
  | some i =>
    simp only
    refine ⟨h, ?_⟩
    have := (number_find (fun x => goEq x v) l.values 0).1 i (by
      have := hlk; unfold lookupVal at this; rw [h.valuesMap] at this; exact this)
    obtain ⟨_, w, h1, h2⟩ := this
    exact ⟨w, by simpa using h1, Or.inr h2⟩
  | none =>
    rw [hlk] at hf
    have hb : l.values.length < 4294967296 := by
      have := hf.2; simp [addValue] at this; omega
    exact ⟨(addValue_ok l v h hb hlk).1, v, (addValue_ok l v h hb hlk).2.1, Or.inl rfl⟩

theorem tagPair_ext (l : LayerWrite) (k : Bytes) (v : GoVal) (l' : LayerWrite) (i j : Nat) (e : tagPair l k v = some (l', i, j)) :
    Extends l l' := by
  unfold tagPair at e
  split at e
  · simp at e
  · simp at e
    obtain ⟨rfl, rfl, rfl⟩ := e
    exact (keyStep_ext l k).trans (valStep_ext _ v)

theorem tagPair_ok (l : LayerWrite) (k : Bytes) (v : GoVal) (l' : LayerWrite) (i j : Nat) (h : DictOk l)
    (e : tagPair l k v = some (l', i, j)) (hf : Fits32 l') : DictOk l' ∧ Resolves l' i j k v := by
  unfold tagPair at e
  split at e
  · simp at e
  · simp at e
    obtain ⟨rfl, rfl, rfl⟩ := e
    have h2 := valStep_ext (keyTag l k).1 v
    obtain ⟨ok1, r1⟩ := keyStep_ok l k h (hf.anti h2)
    obtain ⟨ok2, r2⟩ := valStep_ok (keyTag l k).1 v ok1 hf
    exact ⟨ok2, prefix_getElem? h2.1 r1, r2⟩

/-- The tags `ts` stand, pair by pair, for the properties `ps` in the tables of `l`. -/
inductive TagsFor (l : LayerWrite) : List Nat → List (Bytes × GoVal) → Prop
  | nil : TagsFor l [] []
  | cons {i j : Nat} {ts : List Nat} {k : Bytes} {v : GoVal} {ps : List (Bytes × GoVal)} :
      Resolves l i j k v → TagsFor l ts ps → TagsFor l (i :: j :: ts) ((k, v) :: ps)

theorem TagsFor.mono {l l' : LayerWrite} (h : Extends l l') {ts : List Nat} {ps : List (Bytes × GoVal)} (ht : TagsFor l ts ps) :
    TagsFor l' ts ps := by
  induction ht with
  | nil => exact .nil
  | cons hr _ ih => exact .cons (hr.mono h) ih

theorem getTags_ext (ps : List (Bytes × GoVal)) : ∀ (l l' : LayerWrite) (ts : List Nat), getTags l ps = some (l', ts) → Extends l l' := by
  induction ps with
  | nil => intro l l' ts e; simp [getTags] at e; rw [← e.1]; exact Extends.refl l
  | cons p ps ih =>
    obtain ⟨k, v⟩ := p
    intro l l' ts e
    rw [getTags] at e
    cases h1 : tagPair l k v with
    | none => simp [h1] at e
    | some x =>
      obtain ⟨l1, i, j⟩ := x
      simp only [h1, Option.bind_some] at e
      cases h2 : getTags l1 ps with
      | none => simp [h2] at e
      | some y =>
        obtain ⟨l2, t2⟩ := y
        simp [h2] at e
        rw [← e.1]
        exact (tagPair_ext l k v l1 i j h1).trans (ih l1 l2 t2 h2)

theorem getTags_ok (ps : List (Bytes × GoVal)) : ∀ (l l' : LayerWrite) (ts : List Nat), DictOk l → getTags l ps = some (l', ts) → Fits32 l' →
    DictOk l' ∧ TagsFor l' ts ps := by
  induction ps with
  | nil => intro l l' ts h e hf; simp [getTags] at e; obtain ⟨rfl, rfl⟩ := e; exact ⟨h, .nil⟩
  | cons p ps ih =>
    obtain ⟨k, v⟩ := p
    intro l l' ts h e hf
    rw [getTags] at e
    cases h1 : tagPair l k v with
    | none => simp [h1] at e
    | some x =>
      obtain ⟨l1, i, j⟩ := x
      simp only [h1, Option.bind_some] at e
      cases h2 : getTags l1 ps with
      | none => simp [h2] at e
      | some y =>
        obtain ⟨l2, t2⟩ := y
        simp [h2] at e
        obtain ⟨rfl, rfl⟩ := e
        have hx := getTags_ext ps l1 l2 t2 h2
        obtain ⟨ok1, r1⟩ := tagPair_ok l k v l1 i j h h1 (hf.anti hx)
        obtain ⟨ok2, r2⟩ := ih l1 l2 t2 ok1 h2 hf
        exact ⟨ok2, .cons (r1.mono hx) r2⟩

end Verif.Mvt
