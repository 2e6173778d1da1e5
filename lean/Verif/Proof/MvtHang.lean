import Verif.Proof.MvtWire
import Verif.Proof.MvtBulk
import Verif.Spec.MvtHang

/-! # Lemmas: when reading a tile never ends -/
namespace Verif.Mvt
open Verif.Go Verif.Pbf

/-! ## More loop passes do not change a result -/

/-- `y` is what `x` gives, or `x` ran out of passes. -/
def Res.Le {α : Type} (x y : Res α) : Prop := x = .hang ∨ x = y

theorem Res.Le.refl {α : Type} (x : Res α) : x.Le x := .inr rfl
theorem Res.Le.trans {α : Type} {x y z : Res α} (h : x.Le y) (h' : y.Le z) : x.Le z := by
  rcases h with rfl | rfl
  · exact .inl rfl
  · exact h'
theorem Res.Le.bind {α β : Type} {x y : Res α} {f g : α → Res β} (h : x.Le y) (hf : ∀ a, (f a).Le (g a)) : (x.bind f).Le (y.bind g) := by
  rcases h with rfl | rfl
  · exact .inl rfl
  · cases x with
    | ok a => exact hf a
    | panic => exact .inr rfl
    | hang => exact .inl rfl
theorem Res.Le.eq {α : Type} {x y : Res α} (h : x.Le y) (hx : x ≠ .hang) : x = y := h.resolve_left hx

theorem whileR_le {S : Type} (cond : S → Bool) {body body' : S → Res S} (hb : ∀ s, (body s).Le (body' s)) {n m : Nat} (h : n ≤ m) (s : S) :
    (whileR cond body n s).Le (whileR cond body' m s) := by
  induction n generalizing m s with
  | zero => exact .inl rfl
  | succ n ih =>
    obtain ⟨m, rfl⟩ : ∃ j, m = j + 1 := ⟨m - 1, by omega⟩
    rw [whileR, whileR]
    split
    · exact Res.Le.bind (hb s) (fun a => ih (by omega) a)
    · exact .refl _

theorem layerPass_le (P : Proto) (nc : NumCodec) (b : Bytes) (aw : Bool) {n m : Nat} (h : n ≤ m) (st : LS) :
    (layerPass P nc b n aw st).Le (layerPass P nc b m aw st) := by
  unfold layerPass
  refine Res.Le.bind (.refl _) fun st => ?_
  refine Res.Le.bind (whileR_le _ (fun _ => .refl _) h st) fun st => ?_
  refine Res.Le.bind (whileR_le _ (fun _ => .refl _) h st) fun st => ?_
  refine Res.Le.bind (whileR_le _ (fun _ => .refl _) h st) fun st => ?_
  exact .refl _

theorem newLayer_le (P : Proto) (nc : NumCodec) (b : Bytes) (aw : Bool) (p e : Int) {n m : Nat} (h : n ≤ m) :
    (newLayer P nc b n aw p e).Le (newLayer P nc b m aw p e) := by
  unfold newLayer
  refine Res.Le.bind (.refl _) fun x => ?_
  obtain ⟨k, w, q⟩ := x
  exact Res.Le.bind (whileR_le _ (fun st => layerPass_le P nc b aw h st) h _) fun _ => .refl _

theorem readFeatureFrom_le (P : Proto) (b : Bytes) (late : Bool) (skip : Int) (l : Layer) (f0 : Feature) (p : Int) {n m : Nat} (h : n ≤ m) :
    (readFeatureFrom P b late skip n l f0 p).Le (readFeatureFrom P b late skip m l f0 p) := by
  unfold readFeatureFrom
  refine Res.Le.bind (.refl _) fun x => ?_
  exact Res.Le.bind (whileR_le _ (fun _ => .refl _) h _) fun _ => .refl _

theorem bulkFeatures_le (P : Proto) (b : Bytes) (late : Bool) (skip : Int) (l : Layer) {n m : Nat} (h : n ≤ m) (ps : List Int) :
    ∀ c, (bulkFeatures P b late skip n l c ps).Le (bulkFeatures P b late skip m l c ps) := by
  induction ps with
  | nil => intro c; exact .refl _
  | cons p ps ih =>
    intro c
    rw [bulkFeatures, bulkFeatures]
    refine Res.Le.bind (readFeatureFrom_le P b late skip l _ p h) fun f => ?_
    refine Res.Le.bind (.refl _) fun g => ?_
    exact Res.Le.bind (ih _) fun _ => .refl _

/-! ## Reads move forward -/

theorem decVarint_len : ∀ (s : Bytes) (v m : Nat), decVarint s = some (v, m) → 1 ≤ m ∧ m ≤ s.length := by
  intro s
  induction s with
  | nil => intro v m h; simp [decVarint] at h
  | cons x s ihs =>
    intro v m h
    rw [decVarint] at h
    split at h
    · simp at h; obtain ⟨_, rfl⟩ := h; simp
    · cases hs : decVarint s with
      | none => simp [hs] at h
      | some z =>
        obtain ⟨v2, m2⟩ := z
        simp [hs] at h
        have := ihs v2 m2 hs
        simp only [List.length_cons]; omega

theorem readVarint_fwd {b : Bytes} {p v q : Int} (h : readVarint b p = some (v, q)) : 0 ≤ p ∧ p < q ∧ q ≤ b.length := by
  unfold readVarint readUInt64 suffix at h
  by_cases h0 : 0 ≤ p ∧ p ≤ b.length
  · rw [if_pos h0, Option.bind_some] at h
    cases hd : decVarint (b.drop p.toNat) with
    | none => simp [hd] at h
    | some y =>
      obtain ⟨v', m⟩ := y
      have := decVarint_len _ _ _ hd
      simp only [hd, Option.map_some, Option.some.injEq, Prod.mk.injEq] at h
      rw [List.length_drop] at this
      omega
  · rw [if_neg h0] at h; simp at h

theorem readString_fwd {b : Bytes} {p q : Int} {s : Bytes} (h : readString b p = some (s, q)) : 0 ≤ p ∧ p < q ∧ q ≤ b.length := by
  unfold readString at h
  cases hv : readVarint b p with
  | none => simp [hv] at h
  | some y =>
    obtain ⟨n, q'⟩ := y
    have h1 := readVarint_fwd hv
    rw [hv, Option.bind_some] at h
    unfold suffix at h
    simp only at h
    rw [if_pos (by omega), Option.bind_some] at h
    split at h
    · rename_i h2
      simp only [Option.some.injEq, Prod.mk.injEq] at h
      rw [List.length_drop] at h2
      omega
    · simp at h

theorem readTag_fwd {b : Bytes} {p q : Int} {k w : Nat} (h : readTag b p = some (k, w, q)) : p ≤ q ∧ (p < b.length → 0 ≤ p ∧ q = p + 1) := by
  unfold readTag suffix at h
  split at h
  · simp at h; omega
  · split at h
    · rename_i h1 h2
      rw [Option.bind_some] at h
      cases hd : (b.drop p.toNat).head? with
      | none => simp [hd] at h
      | some x => simp [hd] at h; omega
    · simp at h

section layer
variable (P : Proto) (nc : NumCodec) (hP : P.Good) (b : Bytes) (aw : Bool) (e : Int)

theorem readVal_fwd {t : Nat} {p q : Int} {v : Option Val} (h : readVal P nc b t p = some (v, q)) : p ≤ q := by
  have num : ∀ {α : Type} (dec : Bytes → Option (α × Nat)) (mk : α → Val),
      ((suffix b p).bind fun s => (dec s).map fun (v, n) => ((some (mk v) : Option Val), p + (n : Int))) = some (v, q) → p ≤ q := by
    intro α dec mk h
    cases hs : suffix b p with
    | none => simp [hs] at h
    | some s =>
      rw [hs, Option.bind_some] at h
      cases hd : dec s with
      | none => simp [hd] at h
      | some x => simp [hd] at h; omega
  unfold readVal at h
  simp only at h
  split at h
  · cases hs : readString b p with
    | none => simp [hs] at h
    | some x =>
      have := readString_fwd hs
      simp [hs] at h; omega
  split at h
  · exact num _ _ h
  split at h
  · exact num _ _ h
  split at h
  · exact num _ _ h
  split at h
  · exact num _ _ h
  split at h
  · exact num _ _ h
  split at h
  · cases hs : readUInt64 b p with
    | none => simp [hs] at h
    | some x =>
      have : readVarint b p = some (i64 x.1, x.2) := by unfold readVarint; rw [hs]; rfl
      have := readVarint_fwd this
      simp [hs] at h; omega
  · simp at h; omega

/-- A field that is not a feature of negative length moves forward. -/
theorem nextField_fwd {k k' w' : Nat} {p p' : Int} (h : nextField P nc b k p = some (k', w', p'))
    (hf : ∀ v q, k = P.features → readVarint b p = some (v, q) → 0 ≤ v) : 0 ≤ p ∧ p < b.length ∧ p < p' := by
  unfold nextField at h
  cases hp : payloadEnd P nc b k p with
  | none => simp [hp] at h
  | some q =>
    rw [hp, Option.bind_some] at h
    have h1 := (readTag_fwd h).1
    suffices h2 : 0 ≤ p ∧ p < b.length ∧ p < q by omega
    unfold payloadEnd at hp
    split at hp
    · cases hs : readString b p with
      | none => simp [hs] at hp
      | some x =>
        have := readString_fwd hs
        simp [hs] at hp; omega
    split at hp
    · rename_i hk
      cases hs : readVarint b p with
      | none => simp [hs] at hp
      | some x =>
        have h3 := readVarint_fwd hs
        have h4 := hf _ _ hk hs
        simp [hs] at hp; omega
    split at hp
    · cases hs : readVarint b p with
      | none => simp [hs] at hp
      | some x =>
        have h3 := readVarint_fwd hs
        rw [hs, Option.bind_some] at hp
        simp only at hp
        cases ht : readTag b x.2 with
        | none => simp [ht] at hp
        | some y =>
          obtain ⟨t0, w0, r0⟩ := y
          have h4 := (readTag_fwd ht).1
          rw [ht, Option.bind_some] at hp
          simp only at hp
          cases hv : readVal P nc b t0 r0 with
          | none => simp [hv] at hp
          | some z =>
            have h5 := readVal_fwd P nc b hv
            simp [hv] at hp; omega
    · cases hs : readVarint b p with
      | none => simp [hs] at hp
      | some x =>
        have := readVarint_fwd hs
        simp [hs] at hp; omega

/-- The test for a field of rank `i`. -/
def Guard (i : Nat) (st : LS) : Prop := st.key = (rankTag P i).1 ∧ ((i = 3 ∧ aw = true) ∨ st.wire = (rankTag P i).2)

theorem knownTag_iff (st : LS) : KnownTag P aw st.key st.wire ↔ ∃ i, i < 6 ∧ Guard P aw i st := by
  unfold KnownTag Guard
  constructor
  · rintro (h | h | h | ⟨h1, h | h⟩ | h | h)
    · exact ⟨0, by decide, h.1, .inr h.2⟩
    · exact ⟨1, by decide, h.1, .inr h.2⟩
    · exact ⟨2, by decide, h.1, .inr h.2⟩
    · exact ⟨3, by decide, h1, .inl ⟨rfl, h⟩⟩
    · exact ⟨3, by decide, h1, .inr h⟩
    · exact ⟨4, by decide, h.1, .inr h.2⟩
    · exact ⟨5, by decide, h.1, .inr h.2⟩
  · rintro ⟨i, hi, h1, h2⟩
    have ci : i = 0 ∨ i = 1 ∨ i = 2 ∨ i = 3 ∨ i = 4 ∨ i = 5 := by omega
    rcases ci with rfl | rfl | rfl | rfl | rfl | rfl <;> simp [rankTag] at h1 h2 <;> simp [h1, h2]

include hP in
/-- The body for a field is the one-field reader. -/
theorem rankBody_next (i : Nat) (hi : i < 6) (st : LS) (h : st.key = (rankTag P i).1) :
    (rankBody P nc b i st).map (fun s => (s.key, s.wire, s.pos)) = nextField P nc b st.key st.pos := by
  have hd := hP.layer
  simp only [List.nodup_cons, List.mem_cons, List.not_mem_nil, or_false, not_or, List.nodup_nil, and_true, not_false_eq_true] at hd
  obtain ⟨⟨a1, a2, a3, a4, a5⟩, ⟨b1, b2, b3, b4⟩, ⟨c1, c2, c3⟩, ⟨d1, d2⟩, e0⟩ := hd
  have tg : ∀ (q : Int) (l : Layer), (nextTag b st q l).map (fun s => (s.key, s.wire, s.pos)) = readTag b q := by
    intro q l; unfold nextTag; cases readTag b q <;> simp
  have ci : i = 0 ∨ i = 1 ∨ i = 2 ∨ i = 3 ∨ i = 4 ∨ i = 5 := by omega
  rcases ci with rfl | rfl | rfl | rfl | rfl | rfl
  · have hk : st.key = P.name := h
    simp only [rankBody, nextField, payloadEnd, hk, true_or, if_true]
    cases readString b st.pos with
    | none => rfl
    | some x =>
      simp only [Option.bind_some, Option.map_some]
      rw [← tg x.2 { st.layer with name := x.1 }]
      cases nextTag b st x.2 { st.layer with name := x.1 } <;> rfl
  · have hk : st.key = P.features := h
    simp only [rankBody, featBody, nextField, payloadEnd, hk, Ne.symm a1, b1, false_or, if_false, if_true]
    cases readVarint b st.pos with
    | none => rfl
    | some x => simp only [Option.bind_some, Option.map_some]; rw [tg]
  · have hk : st.key = P.keys := h
    simp only [rankBody, keyBody, nextField, payloadEnd, hk, or_true, if_true]
    cases readString b st.pos with
    | none => rfl
    | some x => simp only [Option.bind_some, Option.map_some]; rw [tg]
  · have hk : st.key = P.values := h
    simp only [rankBody, valBody, nextField, payloadEnd, hk, Ne.symm a3, Ne.symm c1, Ne.symm b2, false_or, if_false, if_true]
    cases readVarint b st.pos with
    | none => rfl
    | some x =>
      simp only [Option.bind_some]
      cases readTag b x.2 with
      | none => rfl
      | some y =>
        simp only [Option.bind_some]
        cases readVal P nc b y.1 y.2.2 with
        | none => rfl
        | some z => simp only [Option.bind_some, Option.map_some]; rw [tg]
  · have hk : st.key = P.extent := h
    simp only [rankBody, nextField, payloadEnd, hk, Ne.symm a4, Ne.symm c2, Ne.symm b3, Ne.symm d1, false_or, if_false]
    cases readVarint b st.pos with
    | none => rfl
    | some x => simp only [Option.bind_some, Option.map_some]; rw [tg]
  · have hk : st.key = P.version := h
    simp only [rankBody, nextField, payloadEnd, hk, Ne.symm a5, Ne.symm c3, Ne.symm b4, Ne.symm d2, false_or, if_false]
    cases readVarint b st.pos with
    | none => rfl
    | some x => simp only [Option.bind_some, Option.map_some]; rw [tg]

/-- Stuck and backward for the state of the loop. -/
def StuckS (st : LS) : Prop := Stuck P nc b aw e st.key st.wire st.pos
def BackS (st : LS) : Prop := Backward P nc b aw st.key st.wire st.pos

theorem Stuck.lt {k w : Nat} {p : Int} (h : Stuck P nc b aw e k w p) : p < e := by cases h <;> assumption

/-- `st'` comes after `st`. -/
structure After (st st' : LS) : Prop where
  pos : st.pos ≤ st'.pos
  back : BackS P nc b aw st' → BackS P nc b aw st
  stuck : StuckS P nc b aw e st' → StuckS P nc b aw e st

theorem After.refl (st : LS) : After P nc b aw e st st := ⟨le_rfl, id, id⟩
theorem After.trans {s1 s2 s3 : LS} (h : After P nc b aw e s1 s2) (h' : After P nc b aw e s2 s3) : After P nc b aw e s1 s3 :=
  ⟨h.pos.trans h'.pos, h.back ∘ h'.back, h.stuck ∘ h'.stuck⟩

include hP in
theorem step_after (i : Nat) (hi : i < 6) (st st' : LS) (hg : Guard P aw i st) (hb : ¬ BackS P nc b aw st) (h : rankBody P nc b i st = some st') :
    After P nc b aw e st st' ∧ st.pos < b.length ∧ st.pos < st'.pos := by
  have hk : KnownTag P aw st.key st.wire := (knownTag_iff P aw st).mpr ⟨i, hi, hg⟩
  have hn := rankBody_next P nc hP b i hi st hg.1
  rw [h, Option.map_some] at hn
  have hfwd := nextField_fwd P nc b hn.symm (by
    intro v q hkf hv
    by_contra hneg
    apply hb
    unfold BackS
    rw [hkf] at hk ⊢
    exact .here hk hv (by omega))
  refine ⟨⟨by omega, ?_, ?_⟩, hfwd.2.1, hfwd.2.2⟩
  · intro h2; exact .next hk hn.symm h2
  · intro h2
    have := Stuck.lt P nc b aw e h2
    exact .next (by omega) hk hn.symm h2

/-- A test of the loop and its body, once or as a loop. -/
def stage (loop : Bool) (i : Nat) (cond : LS → Bool) (n : Nat) (st : LS) : Res LS :=
  if loop then whileR cond (fun st => Res.of (rankBody P nc b i st)) n st
  else if cond st then Res.of (rankBody P nc b i st) else .ok st

/-- A stage ends after a bounded number of passes. -/
def StageEnds (i : Nat) (st : LS) (r : Res LS) : Prop :=
  r = .panic ∨ ∃ st', r = .ok st' ∧ After P nc b aw e st st' ∧ (st' = st ∨ (st.pos < b.length ∧ st.pos < st'.pos)) ∧
    (Guard P aw i st → st.pos < b.length ∧ st.pos < st'.pos)

include hP in
theorem stage_ends (loop : Bool) (i : Nat) (hi : i < 6) (cond : LS → Bool) (hc : ∀ st, cond st = true ↔ Guard P aw i st) :
    ∀ (n : Nat) (st : LS), ¬ BackS P nc b aw st → 1 ≤ n → (b.length : Int) - st.pos < n → StageEnds P nc b aw e i st (stage P nc b loop i cond n st) := by
  have once : ∀ st, ¬ BackS P nc b aw st → Guard P aw i st → rankBody P nc b i st = none ∨ ∃ st', rankBody P nc b i st = some st' ∧
      After P nc b aw e st st' ∧ st.pos < b.length ∧ st.pos < st'.pos := by
    intro st hb hg
    cases h : rankBody P nc b i st with
    | none => exact .inl rfl
    | some st' => exact .inr ⟨st', rfl, step_after P nc hP b aw e i hi st st' hg hb h⟩
  cases loop with
  | false =>
    intro n st hb _ _
    unfold stage
    simp only [Bool.false_eq_true, if_false]
    by_cases hg : cond st = true
    · rw [if_pos hg]
      rcases once st hb ((hc st).mp hg) with h | ⟨st', h, h1, h2⟩
      · rw [h]; exact .inl rfl
      · rw [h]; exact .inr ⟨st', rfl, h1, .inr h2, fun _ => h2⟩
    · rw [if_neg hg]
      exact .inr ⟨st, rfl, .refl .., .inl rfl, fun h => absurd ((hc st).mpr h) hg⟩
  | true =>
    unfold stage
    simp only [if_true]
    intro n
    induction n with
    | zero => intro st _ h; omega
    | succ n ih =>
      intro st hb _ hn
      rw [whileR]
      by_cases hg : cond st = true
      · rw [if_pos hg]
        rcases once st hb ((hc st).mp hg) with h | ⟨st', h, h1, h2, h3⟩
        · rw [h]; exact .inl rfl
        · rw [h, Res.of_some, Res.bind_ok]
          push_cast at hn
          rcases ih st' (fun h => hb (h1.back h)) (by omega) (by omega) with h4 | ⟨st'', h4, h5, _⟩
          · exact .inl h4
          · have h6 : st.pos < b.length ∧ st.pos < st''.pos := ⟨h2, by have := h5.pos; omega⟩
            exact .inr ⟨st'', h4, h1.trans P nc b aw e h5, .inr h6, fun _ => h6⟩
      · rw [if_neg hg]
        exact .inr ⟨st, rfl, .refl .., .inl rfl, fun h => absurd ((hc st).mpr h) hg⟩

include hP in
/-- A stuck state stays stuck. -/
theorem stage_stuck (loop : Bool) (i : Nat) (hi : i < 6) (cond : LS → Bool) (hc : ∀ st, cond st = true ↔ Guard P aw i st) :
    ∀ (n : Nat) (st : LS), StuckS P nc b aw e st → stage P nc b loop i cond n st = .hang ∨
      ∃ st', stage P nc b loop i cond n st = .ok st' ∧ StuckS P nc b aw e st' := by
  have once : ∀ st, StuckS P nc b aw e st → Guard P aw i st → ∃ st', rankBody P nc b i st = some st' ∧ StuckS P nc b aw e st' := by
    intro st hs hg
    have hk : KnownTag P aw st.key st.wire := (knownTag_iff P aw st).mpr ⟨i, hi, hg⟩
    have hn := rankBody_next P nc hP b i hi st hg.1
    cases hs with
    | here _ h => exact absurd hk h
    | next _ _ h1 h2 =>
      rw [h1] at hn
      cases h : rankBody P nc b i st with
      | none => simp [h] at hn
      | some st' =>
        simp [h] at hn
        refine ⟨st', rfl, ?_⟩
        unfold StuckS
        rw [hn.1, hn.2.1, hn.2.2]; exact h2
  cases loop with
  | false =>
    intro n st hs
    unfold stage
    simp only [Bool.false_eq_true, if_false]
    by_cases hg : cond st = true
    · obtain ⟨st', h1, h2⟩ := once st hs ((hc st).mp hg)
      rw [if_pos hg, h1]; exact .inr ⟨st', rfl, h2⟩
    · rw [if_neg hg]; exact .inr ⟨st, rfl, hs⟩
  | true =>
    unfold stage
    simp only [if_true]
    intro n
    induction n with
    | zero => intro st _; exact .inl rfl
    | succ n ih =>
      intro st hs
      rw [whileR]
      by_cases hg : cond st = true
      · obtain ⟨st', h1, h2⟩ := once st hs ((hc st).mp hg)
        rw [if_pos hg, h1, Res.of_some, Res.bind_ok]
        exact ih st' h2
      · rw [if_neg hg]; exact .inr ⟨st, rfl, hs⟩

/-- The pass as six stages. -/
theorem layerPass_stages (n : Nat) (st : LS) : layerPass P nc b n aw st =
    (stage P nc b false 0 (fun st => decide (st.key = P.name ∧ st.wire = 2)) n st).bind fun st =>
    (stage P nc b true 1 (fun st => decide (st.key = P.features ∧ st.wire = 2)) n st).bind fun st =>
    (stage P nc b true 2 (fun st => decide (st.key = P.keys ∧ st.wire = 2)) n st).bind fun st =>
    (stage P nc b true 3 (fun st => decide (st.key = P.values ∧ (aw = true ∨ st.wire = 2))) n st).bind fun st =>
    (stage P nc b false 4 (fun st => decide (st.key = P.extent ∧ st.wire = 0)) n st).bind fun st =>
    stage P nc b false 5 (fun st => decide (st.key = P.version ∧ st.wire = 0)) n st := by
  have e0 : ∀ st, Res.of (passName P b st) = stage P nc b false 0 (fun st => decide (st.key = P.name ∧ st.wire = 2)) n st := by
    intro st; unfold passName stage; simp only [Bool.false_eq_true, if_false, decide_eq_true_eq]; split <;> rfl
  have e4 : ∀ st, Res.of (passExtent P b st) = stage P nc b false 4 (fun st => decide (st.key = P.extent ∧ st.wire = 0)) n st := by
    intro st; unfold passExtent stage; simp only [Bool.false_eq_true, if_false, decide_eq_true_eq]; split <;> rfl
  have e5 : ∀ st, Res.of (passVersion P b st) = stage P nc b false 5 (fun st => decide (st.key = P.version ∧ st.wire = 0)) n st := by
    intro st; unfold passVersion stage; simp only [Bool.false_eq_true, if_false, decide_eq_true_eq]; split <;> rfl
  unfold layerPass
  simp only [e0, e4, e5]
  rfl

include hP in
/-- A pass ends, and a pass that starts with a known tag advances. -/
theorem layerPass_ends (n : Nat) (st : LS) (hb : ¬ BackS P nc b aw st) (h1 : 1 ≤ n) (hn : (b.length : Int) - st.pos < n) :
    layerPass P nc b n aw st = .panic ∨ ∃ st', layerPass P nc b n aw st = .ok st' ∧ After P nc b aw e st st' ∧
      (KnownTag P aw st.key st.wire → st.pos < b.length ∧ st.pos < st'.pos) := by
  rw [layerPass_stages]
  have run : ∀ (loop : Bool) (i : Nat), i < 6 → ∀ (cond : LS → Bool), (∀ st, cond st = true ↔ Guard P aw i st) → ∀ st', After P nc b aw e st st' →
      StageEnds P nc b aw e i st' (stage P nc b loop i cond n st') := by
    intro loop i hi cond hc st' h
    exact stage_ends P nc hP b aw e loop i hi cond hc n st' (fun hb' => hb (h.back hb')) h1 (by have := h.pos; omega)
  have g0 : ∀ st : LS, decide (st.key = P.name ∧ st.wire = 2) = true ↔ Guard P aw 0 st := by intro st; simp [Guard, rankTag]
  have g1 : ∀ st : LS, decide (st.key = P.features ∧ st.wire = 2) = true ↔ Guard P aw 1 st := by intro st; simp [Guard, rankTag]
  have g2 : ∀ st : LS, decide (st.key = P.keys ∧ st.wire = 2) = true ↔ Guard P aw 2 st := by intro st; simp [Guard, rankTag]
  have g3 : ∀ st : LS, decide (st.key = P.values ∧ (aw = true ∨ st.wire = 2)) = true ↔ Guard P aw 3 st := by intro st; simp [Guard, rankTag]
  have g4 : ∀ st : LS, decide (st.key = P.extent ∧ st.wire = 0) = true ↔ Guard P aw 4 st := by intro st; simp [Guard, rankTag]
  have g5 : ∀ st : LS, decide (st.key = P.version ∧ st.wire = 0) = true ↔ Guard P aw 5 st := by intro st; simp [Guard, rankTag]
  rcases run false 0 (by decide) _ g0 st (.refl ..) with h | ⟨s0, h, A0, B0, C0⟩
  · rw [h]; exact .inl rfl
  rw [h, Res.bind_ok]; clear h
  rcases run true 1 (by decide) _ g1 s0 A0 with h | ⟨s1, h, A1, B1, C1⟩
  · rw [h]; exact .inl rfl
  rw [h, Res.bind_ok]; clear h
  replace A1 := A0.trans P nc b aw e A1
  rcases run true 2 (by decide) _ g2 s1 A1 with h | ⟨s2, h, A2, B2, C2⟩
  · rw [h]; exact .inl rfl
  rw [h, Res.bind_ok]; clear h
  replace A2 := A1.trans P nc b aw e A2
  rcases run true 3 (by decide) _ g3 s2 A2 with h | ⟨s3, h, A3, B3, C3⟩
  · rw [h]; exact .inl rfl
  rw [h, Res.bind_ok]; clear h
  replace A3 := A2.trans P nc b aw e A3
  rcases run false 4 (by decide) _ g4 s3 A3 with h | ⟨s4, h, A4, B4, C4⟩
  · rw [h]; exact .inl rfl
  rw [h, Res.bind_ok]; clear h
  replace A4 := A3.trans P nc b aw e A4
  rcases run false 5 (by decide) _ g5 s4 A4 with h | ⟨s5, h, A5, B5, C5⟩
  · rw [h]; exact .inl rfl
  rw [h]; clear h
  right
  refine ⟨s5, rfl, A4.trans P nc b aw e A5, ?_⟩
  intro hk
  obtain ⟨i, hi, hg⟩ := (knownTag_iff P aw st).mp hk
  have p1 := A0.pos; have p2 := A1.pos; have p3 := A2.pos; have p4 := A3.pos; have p5 := A4.pos; have p6 := A5.pos
  have ci : i = 0 ∨ i = 1 ∨ i = 2 ∨ i = 3 ∨ i = 4 ∨ i = 5 := by omega
  -- as long as nothing happened the state is the first one
  rcases B0 with rfl | B0
  swap
  · exact ⟨B0.1, by
      rcases B1 with rfl | B1 <;> rcases B2 with rfl | B2 <;> rcases B3 with rfl | B3 <;> rcases B4 with rfl | B4 <;> rcases B5 with rfl | B5 <;> omega⟩
  rcases B1 with rfl | B1
  swap
  · exact ⟨B1.1, by
      rcases B2 with rfl | B2 <;> rcases B3 with rfl | B3 <;> rcases B4 with rfl | B4 <;> rcases B5 with rfl | B5 <;> omega⟩
  rcases B2 with rfl | B2
  swap
  · exact ⟨B2.1, by
      rcases B3 with rfl | B3 <;> rcases B4 with rfl | B4 <;> rcases B5 with rfl | B5 <;> omega⟩
  rcases B3 with rfl | B3
  swap
  · exact ⟨B3.1, by
      rcases B4 with rfl | B4 <;> rcases B5 with rfl | B5 <;> omega⟩
  rcases B4 with rfl | B4
  swap
  · exact ⟨B4.1, by rcases B5 with rfl | B5 <;> omega⟩
  rcases ci with rfl | rfl | rfl | rfl | rfl | rfl
  · exact absurd (C0 hg).2 (by omega)
  · exact absurd (C1 hg).2 (by omega)
  · exact absurd (C2 hg).2 (by omega)
  · exact absurd (C3 hg).2 (by omega)
  · exact absurd (C4 hg).2 (by omega)
  · exact C5 hg

include hP in
/-- A pass from a stuck state does not panic and leads to a stuck state. -/
theorem layerPass_stuck (n : Nat) (st : LS) (hs : StuckS P nc b aw e st) :
    layerPass P nc b n aw st = .hang ∨ ∃ st', layerPass P nc b n aw st = .ok st' ∧ StuckS P nc b aw e st' := by
  rw [layerPass_stages]
  have run := fun (loop : Bool) (i : Nat) (hi : i < 6) (cond : LS → Bool) (hc : ∀ st, cond st = true ↔ Guard P aw i st) =>
    stage_stuck P nc hP b aw e loop i hi cond hc n
  have g0 : ∀ st : LS, decide (st.key = P.name ∧ st.wire = 2) = true ↔ Guard P aw 0 st := by intro st; simp [Guard, rankTag]
  have g1 : ∀ st : LS, decide (st.key = P.features ∧ st.wire = 2) = true ↔ Guard P aw 1 st := by intro st; simp [Guard, rankTag]
  have g2 : ∀ st : LS, decide (st.key = P.keys ∧ st.wire = 2) = true ↔ Guard P aw 2 st := by intro st; simp [Guard, rankTag]
  have g3 : ∀ st : LS, decide (st.key = P.values ∧ (aw = true ∨ st.wire = 2)) = true ↔ Guard P aw 3 st := by intro st; simp [Guard, rankTag]
  have g4 : ∀ st : LS, decide (st.key = P.extent ∧ st.wire = 0) = true ↔ Guard P aw 4 st := by intro st; simp [Guard, rankTag]
  have g5 : ∀ st : LS, decide (st.key = P.version ∧ st.wire = 0) = true ↔ Guard P aw 5 st := by intro st; simp [Guard, rankTag]
  rcases run false 0 (by decide) _ g0 st hs with h | ⟨s0, h, hs⟩
  · rw [h]; exact .inl rfl
  rw [h, Res.bind_ok]; clear h
  rcases run true 1 (by decide) _ g1 s0 hs with h | ⟨s1, h, hs⟩
  · rw [h]; exact .inl rfl
  rw [h, Res.bind_ok]; clear h
  rcases run true 2 (by decide) _ g2 s1 hs with h | ⟨s2, h, hs⟩
  · rw [h]; exact .inl rfl
  rw [h, Res.bind_ok]; clear h
  rcases run true 3 (by decide) _ g3 s2 hs with h | ⟨s3, h, hs⟩
  · rw [h]; exact .inl rfl
  rw [h, Res.bind_ok]; clear h
  rcases run false 4 (by decide) _ g4 s3 hs with h | ⟨s4, h, hs⟩
  · rw [h]; exact .inl rfl
  rw [h, Res.bind_ok]; clear h
  exact run false 5 (by decide) _ g5 s4 hs

include hP in
/-- The loop over a layer that is neither stuck nor goes backward ends. -/
theorem layerLoop_ends (n : Nat) (h1 : 1 ≤ n) : ∀ (m : Nat) (st : LS), 1 ≤ m → (b.length : Int) - st.pos < m → (b.length : Int) - st.pos < n →
    ¬ BackS P nc b aw st → ¬ StuckS P nc b aw e st → whileR (fun st : LS => decide (st.pos < e)) (layerPass P nc b n aw) m st ≠ .hang := by
  intro m
  induction m with
  | zero => intro st h; omega
  | succ m ih =>
    intro st _ hm hn hb hs
    rw [whileR]
    by_cases hp : st.pos < e
    · rw [if_pos (by simpa using hp)]
      have hk : KnownTag P aw st.key st.wire := by
        by_contra hk
        exact hs (.here hp hk)
      rcases layerPass_ends P nc hP b aw e n st hb h1 hn with h | ⟨st', h, A, B⟩
      · rw [h]; intro h; cases h
      · rw [h, Res.bind_ok]
        have := B hk
        push_cast at hm
        exact ih st' (by omega) (by omega) (by omega) (fun h => hb (A.back h)) (fun h => hs (A.stuck h))
    · rw [if_neg (by simpa using hp)]
      intro h; cases h

include hP in
/-- Reading a layer never ends exactly when its fields are stuck. -/
theorem newLayer_hang_iff (p : Int) {k w : Nat} {q : Int} (ht : readTag b p = some (k, w, q)) (hb : ¬ Backward P nc b aw k w q) :
    (∀ n, newLayer P nc b n aw p e = .hang) ↔ Stuck P nc b aw e k w q := by
  constructor
  · intro h
    by_contra hs
    set n : Nat := ((b.length : Int) - q + 1).toNat + 1 with hn
    have := h n
    unfold newLayer at this
    rw [ht, Res.of_some, Res.bind_ok] at this
    simp only at this
    have hne := layerLoop_ends P nc hP b aw e n (by omega) n ⟨k, w, q, ⟨[], 0, 0, [], [], [], p, e⟩, []⟩ (by omega)
      (by simp only; omega) (by simp only; omega) hb hs
    cases hw : whileR (fun st : LS => decide (st.pos < e)) (layerPass P nc b n aw) n ⟨k, w, q, ⟨[], 0, 0, [], [], [], p, e⟩, []⟩ with
    | ok a => rw [hw] at this; cases this
    | panic => rw [hw] at this; cases this
    | hang => exact hne hw
  · intro hs n
    unfold newLayer
    rw [ht, Res.of_some, Res.bind_ok]
    simp only
    rw [whileR_forever _ _ (StuckS P nc b aw e) ?_ n ⟨k, w, q, ⟨[], 0, 0, [], [], [], p, e⟩, []⟩ hs]
    · rfl
    · intro st hst
      exact ⟨by simpa using Stuck.lt P nc b aw e hst, layerPass_stuck P nc hP b aw e n st hst⟩

end layer

/-! ## The loop over the layers -/

section tile
variable {S A : Type} (P : Proto) (b : Bytes) (work : Nat → Int → Int → Res A) (pos : S → Int) (upd : S → Int → A → S) (mv : S → Int → S)

/-- The body of the loop over a tile, with the reading of a layer as a parameter. -/
def tileStep (n : Nat) (st : S) : Res S :=
  (Res.of (readTag b (pos st))).bind fun (k, w, q) =>
    if k = P.layers ∧ w = 2 then
      (Res.of (readVarint b q)).bind fun (size, r) =>
        if size ≠ 0 then (work n r (r + size)).bind fun a => .ok (upd st (r + size) a)
        else .ok (mv st r)
    else .ok (mv st q)

variable (hw : ∀ n m r e, n ≤ m → (work n r e).Le (work m r e)) (hu : ∀ st e a, pos (upd st e a) = e) (hm : ∀ st q, pos (mv st q) = q)

include hw hu hm in
theorem tile_ends (hneg : ∀ p r e, Arrives P b (fun r e => ∃ n a, work n r e = .ok a) p → LayerAt P b p r e → r ≤ e)
    (hno : ¬ ∃ p r e, Arrives P b (fun r e => ∃ n a, work n r e = .ok a) p ∧ LayerAt P b p r e ∧ ∀ n, work n r e = .hang) :
    ∀ (d : Nat) (st : S), Arrives P b (fun r e => ∃ n a, work n r e = .ok a) (pos st) → (b.length : Int) - pos st ≤ d →
      ∃ N, ∀ n m, N ≤ n → N ≤ m → whileR (fun st => decide (pos st < b.length)) (tileStep P b work pos upd mv n) m st ≠ .hang := by
  intro d
  induction d with
  | zero =>
    intro st _ hd
    refine ⟨1, fun n m _ hm' => ?_⟩
    obtain ⟨m, rfl⟩ : ∃ j, m = j + 1 := ⟨m - 1, by omega⟩
    rw [whileR, if_neg (by simp at hd ⊢; omega)]
    intro h; cases h
  | succ d ih =>
    intro st ha hd
    by_cases hp : pos st < b.length
    swap
    · refine ⟨1, fun n m _ hm' => ?_⟩
      obtain ⟨m, rfl⟩ : ∃ j, m = j + 1 := ⟨m - 1, by omega⟩
      rw [whileR, if_neg (by simpa using hp)]
      intro h; cases h
    -- one pass
    suffices hs : ∃ N, (∀ n, N ≤ n → tileStep P b work pos upd mv n st = .panic) ∨
        ∃ st', (∀ n, N ≤ n → tileStep P b work pos upd mv n st = .ok st') ∧ Arrives P b (fun r e => ∃ n a, work n r e = .ok a) (pos st') ∧ pos st < pos st' by
      obtain ⟨N, h | ⟨st', h, h1, h2⟩⟩ := hs
      · refine ⟨N + 1, fun n m hn hm' => ?_⟩
        obtain ⟨m, rfl⟩ : ∃ j, m = j + 1 := ⟨m - 1, by omega⟩
        rw [whileR, if_pos (by simpa using hp), h n (by omega)]
        intro h; cases h
      · obtain ⟨N', h'⟩ := ih st' h1 (by push_cast at hd; omega)
        refine ⟨N + N' + 1, fun n m hn hm' => ?_⟩
        obtain ⟨m, rfl⟩ : ∃ j, m = j + 1 := ⟨m - 1, by omega⟩
        rw [whileR, if_pos (by simpa using hp), h n (by omega), Res.bind_ok]
        exact h' n m (by omega) (by omega)
    unfold tileStep
    cases ht : readTag b (pos st) with
    | none => exact ⟨0, .inl fun n _ => rfl⟩
    | some x =>
      obtain ⟨k, w, q⟩ := x
      have hq := (readTag_fwd ht).2 hp
      simp only [Res.of_some, Res.bind_ok]
      by_cases hk : k = P.layers ∧ w = 2
      swap
      · refine ⟨0, .inr ⟨mv st q, fun n _ => by rw [if_neg hk], ?_, ?_⟩⟩
        · rw [hm]; exact .skip ha hp ht hk
        · rw [hm]; omega
      · obtain ⟨rfl, rfl⟩ := hk
        simp only [and_self, if_true]
        cases hv : readVarint b q with
        | none => exact ⟨0, .inl fun n _ => rfl⟩
        | some y =>
          obtain ⟨size, r⟩ := y
          have hr := readVarint_fwd hv
          simp only [Res.of_some, Res.bind_ok]
          by_cases hs : size = 0
          · subst hs
            refine ⟨0, .inr ⟨mv st r, fun n _ => by simp, ?_, ?_⟩⟩
            · rw [hm]; exact .empty ha hp ht hv
            · rw [hm]; omega
          · have hl : LayerAt P b (pos st) r (r + size) := ⟨hp, q, size, ht, hv, hs, rfl⟩
            have hnh : ¬ ∀ n, work n r (r + size) = .hang := fun h => hno ⟨_, _, _, ha, hl, h⟩
            push Not at hnh
            obtain ⟨N, hN⟩ := hnh
            simp only [ne_eq, hs, not_false_eq_true, if_true]
            cases hwN : work N r (r + size) with
            | hang => exact absurd hwN hN
            | panic =>
              refine ⟨N, .inl fun n hn => ?_⟩
              rw [← (hw N n r (r + size) hn).eq hN, hwN]; rfl
            | ok a =>
              refine ⟨N, .inr ⟨upd st (r + size) a, fun n hn => ?_, ?_, ?_⟩⟩
              · rw [← (hw N n r (r + size) hn).eq hN, hwN]; rfl
              · rw [hu]; exact .layer ha hl ⟨N, a, hwN⟩
              · rw [hu]; have := hneg _ _ _ ha hl; omega

include hw hu hm in
theorem tile_gets (s0 : S) (h0 : pos s0 = 0) (n m : Nat) {p : Int} (ha : Arrives P b (fun r e => ∃ n a, work n r e = .ok a) p) :
    whileR (fun st => decide (pos st < b.length)) (tileStep P b work pos upd mv n) m s0 = .hang ∨
    ∃ m' st, pos st = p ∧ whileR (fun st => decide (pos st < b.length)) (tileStep P b work pos upd mv n) m s0 =
      whileR (fun st => decide (pos st < b.length)) (tileStep P b work pos upd mv n) m' st := by
  -- one more pass
  have one : ∀ {p p' : Int}, p < b.length → (∀ st : S, pos st = p → tileStep P b work pos upd mv n st = .hang ∨
      ∃ st', pos st' = p' ∧ tileStep P b work pos upd mv n st = .ok st') →
      (whileR (fun st => decide (pos st < b.length)) (tileStep P b work pos upd mv n) m s0 = .hang ∨
        ∃ m' st, pos st = p ∧ whileR (fun st => decide (pos st < b.length)) (tileStep P b work pos upd mv n) m s0 =
          whileR (fun st => decide (pos st < b.length)) (tileStep P b work pos upd mv n) m' st) →
      (whileR (fun st => decide (pos st < b.length)) (tileStep P b work pos upd mv n) m s0 = .hang ∨
        ∃ m' st, pos st = p' ∧ whileR (fun st => decide (pos st < b.length)) (tileStep P b work pos upd mv n) m s0 =
          whileR (fun st => decide (pos st < b.length)) (tileStep P b work pos upd mv n) m' st) := by
    rintro p p' hp hstep (h | ⟨m', st, hst, h⟩)
    · exact .inl h
    · rw [h]
      cases m' with
      | zero => exact .inl rfl
      | succ m' =>
        rw [whileR, if_pos (by simp [hst, hp])]
        rcases hstep st hst with h1 | ⟨st', h1, h2⟩
        · rw [h1]; exact .inl rfl
        · rw [h2, Res.bind_ok]; exact .inr ⟨m', st', h1, rfl⟩
  induction ha with
  | start => exact .inr ⟨m, s0, h0, rfl⟩
  | @skip p q k w _ hp ht hk ih =>
    refine one hp (fun st hst => .inr ⟨mv st q, hm st q, ?_⟩) ih
    unfold tileStep
    rw [hst, ht, Res.of_some, Res.bind_ok]
    simp only
    rw [if_neg hk]
  | @empty p q r _ hp ht hv ih =>
    refine one hp (fun st hst => .inr ⟨mv st r, hm st r, ?_⟩) ih
    unfold tileStep
    rw [hst, ht, Res.of_some, Res.bind_ok]
    simp only
    rw [if_pos ⟨trivial, trivial⟩, hv, Res.of_some, Res.bind_ok]
    simp
  | @layer p r e _ hl hr ih =>
    obtain ⟨hp, q, size, ht, hv, hs, rfl⟩ := hl
    obtain ⟨N, a, hN⟩ := hr
    refine one hp (fun st hst => ?_) ih
    have e1 : tileStep P b work pos upd mv n st = (work n r (r + size)).bind fun a => .ok (upd st (r + size) a) := by
      unfold tileStep
      rw [hst, ht, Res.of_some, Res.bind_ok]
      simp only
      rw [if_pos ⟨trivial, trivial⟩, hv, Res.of_some, Res.bind_ok]
      simp only
      rw [if_pos hs]
    rw [e1]
    have hcase : work n r (r + size) = .hang ∨ work n r (r + size) = .ok a := by
      rcases le_total n N with h | h
      · rcases hw n N r (r + size) h with h1 | h1
        · exact .inl h1
        · exact .inr (h1.trans hN)
      · right
        rw [← (hw N n r (r + size) h).eq (by rw [hN]; intro h; cases h), hN]
    rcases hcase with h | h
    · rw [h]; exact .inl rfl
    · rw [h]; exact .inr ⟨upd st (r + size) a, hu .., rfl⟩

include hw hu hm in
/-- Reading a tile never ends exactly when it gets to a layer whose reading never ends. -/
theorem tile_hang_iff (s0 : S) (h0 : pos s0 = 0)
    (hneg : ∀ p r e, Arrives P b (fun r e => ∃ n a, work n r e = .ok a) p → LayerAt P b p r e → r ≤ e) :
    (∀ n, whileR (fun st => decide (pos st < b.length)) (tileStep P b work pos upd mv n) n s0 = .hang) ↔
    ∃ p r e, Arrives P b (fun r e => ∃ n a, work n r e = .ok a) p ∧ LayerAt P b p r e ∧ ∀ n, work n r e = .hang := by
  constructor
  · intro h
    by_contra hno
    obtain ⟨N, hN⟩ := tile_ends P b work pos upd mv hw hu hm hneg hno ((b.length : Int) - pos s0).toNat s0 (by rw [h0]; exact .start) (by omega)
    exact hN N N le_rfl le_rfl (h N)
  · rintro ⟨p, r, e, ha, ⟨hp, q, size, ht, hv, hs, rfl⟩, hh⟩ n
    rcases tile_gets P b work pos upd mv hw hu hm s0 h0 n n ha with h | ⟨m', st, hst, h⟩
    · exact h
    · rw [h]
      cases m' with
      | zero => rfl
      | succ m' =>
        rw [whileR, if_pos (by simp [hst, hp])]
        have e1 : tileStep P b work pos upd mv n st = .hang := by
          unfold tileStep
          rw [hst, ht, Res.of_some, Res.bind_ok]
          simp only
          rw [if_pos ⟨trivial, trivial⟩, hv, Res.of_some, Res.bind_ok]
          simp only
          rw [if_pos hs, hh n]; rfl
        rw [e1]; rfl

end tile

/-! ## Features -/

section feature
variable (P : Proto) (hP : P.Good) (b : Bytes) (skip : Int) (l : Layer)

include hP in
/-- At or past the end of the buffer nothing happens. -/
theorem featLoopBody_end (st : FS) (h : (b.length : Int) ≤ st.pos) : featLoopBody P b skip l st = some st := by
  have hs := hP.small
  have ht : readTag b st.pos = some (100, 100, st.pos) := by unfold readTag; rw [if_pos (by omega)]
  unfold featLoopBody
  rw [ht, Option.bind_some]
  simp only
  rw [if_neg (by omega), Option.bind_some, if_neg (by omega), Option.bind_some, if_neg (by omega), Option.bind_some, if_neg (by omega)]

theorem packedLoop_fwd (E : Int) : ∀ (f : Nat) (p : Int) (ws : List Nat) (q : Int), packedLoop b E f p = some (ws, q) → p ≤ q := by
  intro f
  induction f with
  | zero => intro p ws q h; simp [packedLoop] at h
  | succ f ih =>
    intro p ws q h
    rw [packedLoop] at h
    split at h
    · cases hr : readUInt64 b p with
      | none => simp [hr] at h
      | some x =>
        have hv : readVarint b p = some (i64 x.1, x.2) := by unfold readVarint; rw [hr]; rfl
        have h1 := readVarint_fwd hv
        rw [hr, Option.bind_some] at h
        cases hl : packedLoop b E f x.2 with
        | none => simp [hl] at h
        | some y =>
          have h2 := ih x.2 y.1 y.2 hl
          simp [hl] at h
          omega
    · simp at h; omega

include hP in
/-- Within the buffer a pass moves forward unless the geometry has a negative length. -/
theorem featLoopBody_fwd (st st' : FS) (hp : st.pos < b.length) (h : featLoopBody P b skip l st = some st')
    (hneg : ∀ p v q, readTag b st.pos = some (P.fGeometry, 2, p) → readVarint b p = some (v, q) → 0 ≤ v + skip) : st.pos < st'.pos := by
  unfold featLoopBody at h
  cases ht : readTag b st.pos with
  | none => simp [ht] at h
  | some x =>
    obtain ⟨k, w, p⟩ := x
    have h1 := (readTag_fwd ht).2 hp
    rw [ht, Option.bind_some] at h
    simp only at h
    by_cases hg : k = P.fGeometry ∧ w = 2
    · obtain ⟨rfl, rfl⟩ := hg
      have hd := hP.feat
      simp only [List.nodup_cons, List.mem_cons, List.not_mem_nil, or_false, not_or, List.nodup_nil, and_true, not_false_eq_true] at hd
      rw [if_neg (by omega), Option.bind_some, if_neg (fun h => hd.2.1.2 h.1.symm), Option.bind_some, if_neg (by omega), Option.bind_some,
        if_pos ⟨rfl, rfl⟩] at h
      obtain ⟨⟨v, q⟩, hv, rfl⟩ := Option.map_eq_some_iff.mp h
      have h2 := readVarint_fwd hv
      have h3 := hneg p v q ht hv
      simp only at h2 ⊢
      omega
    simp only [if_neg hg] at h
    -- the other fields
    obtain ⟨s1, e1, h⟩ := Option.bind_eq_some_iff.mp h
    have p1 : p ≤ s1.pos := by
      split at e1
      · cases hr : readUInt64 b p with
        | none => simp [hr] at e1
        | some x =>
          have hv : readVarint b p = some (i64 x.1, x.2) := by unfold readVarint; rw [hr]; rfl
          have := readVarint_fwd hv
          simp [hr] at e1
          rw [← e1]; simp only; omega
      · simp at e1; rw [← e1]
    obtain ⟨s2, e2, h⟩ := Option.bind_eq_some_iff.mp h
    have p2 : s1.pos ≤ s2.pos := by
      split at e2
      · obtain ⟨⟨ts, q⟩, hr, e2⟩ := Option.bind_eq_some_iff.mp e2
        obtain ⟨r, _, rfl⟩ := Option.map_eq_some_iff.mp e2
        unfold readPacked at hr
        obtain ⟨⟨v, q'⟩, hv, hr⟩ := Option.bind_eq_some_iff.mp hr
        have h1 := readVarint_fwd hv
        have h2 := packedLoop_fwd b _ _ _ _ _ hr
        simp only; omega
      · simp at e2; rw [← e2]
    obtain ⟨s3, e3, h⟩ := Option.bind_eq_some_iff.mp h
    have p3 : s2.pos ≤ s3.pos := by
      split at e3
      · obtain ⟨⟨v, q⟩, hr, rfl⟩ := Option.map_eq_some_iff.mp e3
        unfold varintFirst at hr
        obtain ⟨s, hs, hr⟩ := Option.bind_eq_some_iff.mp hr
        obtain ⟨⟨v', m⟩, hd, hr⟩ := Option.bind_eq_some_iff.mp hr
        obtain ⟨x, _, hr⟩ := Option.map_eq_some_iff.mp hr
        simp only [Prod.mk.injEq] at hr
        simp only; omega
      · simp at e3; rw [← e3]
    simp at h; rw [← h]; omega

include hP in
/-- Reading a feature never ends exactly when it gets to the end of the buffer before the end of the feature. -/
theorem featLoop_hang_iff (E : Int) (s0 : FS)
    (hneg : ∀ st, FeatArrives P b skip l E s0 st → ∀ p v q, readTag b st.pos = some (P.fGeometry, 2, p) → readVarint b p = some (v, q) → 0 ≤ v + skip) :
    (∀ n, whileR (fun st : FS => decide (st.pos < E)) (fun st => Res.of (featLoopBody P b skip l st)) n s0 = .hang) ↔
    ∃ st, FeatArrives P b skip l E s0 st ∧ (b.length : Int) ≤ st.pos ∧ st.pos < E := by
  constructor
  · intro h
    by_contra hno
    have ends : ∀ (n : Nat) (st : FS), FeatArrives P b skip l E s0 st → 1 ≤ n → (b.length : Int) - st.pos < n →
        whileR (fun st : FS => decide (st.pos < E)) (fun st => Res.of (featLoopBody P b skip l st)) n st ≠ .hang := by
      intro n
      induction n with
      | zero => intro st _ h; omega
      | succ n ih =>
        intro st ha _ hn
        rw [whileR]
        by_cases hp : st.pos < E
        · rw [if_pos (by simpa using hp)]
          have hlt : st.pos < b.length := by
            by_contra hge
            exact hno ⟨st, ha, by omega, hp⟩
          cases hb : featLoopBody P b skip l st with
          | none => intro h; cases h
          | some st' =>
            have hf := featLoopBody_fwd P hP b skip l st st' hlt hb (hneg st ha)
            rw [Res.of_some, Res.bind_ok]
            push_cast at hn
            exact ih st' (.next ha hp hb) (by omega) (by omega)
        · rw [if_neg (by simpa using hp)]; intro h; cases h
    exact ends (((b.length : Int) - s0.pos).toNat + 1) s0 .start (by omega) (by push_cast; omega) (h _)
  · rintro ⟨st, ha, h1, h2⟩ n
    have hstuck : ∀ m, whileR (fun st : FS => decide (st.pos < E)) (fun st => Res.of (featLoopBody P b skip l st)) m st = .hang :=
      whileR_stuck _ _ st (by simpa using h2) (.inl (by rw [featLoopBody_end P hP b skip l st h1]; rfl))
    have gets : ∀ {st}, FeatArrives P b skip l E s0 st →
        whileR (fun st : FS => decide (st.pos < E)) (fun st => Res.of (featLoopBody P b skip l st)) n s0 = .hang ∨
        ∃ m, whileR (fun st : FS => decide (st.pos < E)) (fun st => Res.of (featLoopBody P b skip l st)) n s0 =
          whileR (fun st : FS => decide (st.pos < E)) (fun st => Res.of (featLoopBody P b skip l st)) m st := by
      intro st ha
      induction ha with
      | start => exact .inr ⟨n, rfl⟩
      | next _ hp hb ih =>
        rcases ih with h | ⟨m, h⟩
        · exact .inl h
        · cases m with
          | zero => exact .inl h
          | succ m =>
            rw [h, whileR, if_pos (by simpa using hp), hb, Res.of_some, Res.bind_ok]
            exact .inr ⟨m, rfl⟩
    rcases gets ha with h | ⟨m, h⟩
    · exact h
    · rw [h, hstuck]

end feature

end Verif.Mvt
