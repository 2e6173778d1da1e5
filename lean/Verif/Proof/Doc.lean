import Verif.Model.Doc
import Verif.Proof.Strconv
import Verif.Proof.GoFloat

/-!
# Lemmas about the JSON documents
-/
namespace Verif.Doc

open Verif.Go

/-- What is written for `v` reads back as `w`. -/
def Back {α : Type} (c : Codec α) (v w : α) : Prop :=
  ∃ j, c.enc v = some j ∧ c.dec c.zero j = (w, true)

/-- The same, and what is written is not null. -/
def BackV {α : Type} (c : Codec α) (v w : α) : Prop :=
  ∃ j, c.enc v = some j ∧ j ≠ .null ∧ c.dec c.zero j = (w, true)

theorem BackV.back {α : Type} {c : Codec α} {v w : α} (h : BackV c v w) : Back c v w := by
  obtain ⟨j, h1, _, h3⟩ := h
  exact ⟨j, h1, h3⟩

theorem Back.read {α : Type} {c : Codec α} {v w : α} (h : Back c v w) :
    ∃ j, c.write v = some j ∧ c.read j = some w := by
  obtain ⟨j, h1, h2⟩ := h
  refine ⟨j, h1, ?_⟩
  unfold Codec.read
  rw [h2]; rfl

theorem back_str (s : Str) : BackV strC s s := ⟨_, rfl, by simp, rfl⟩

theorem back_int {n : Int} (h : IsI64 n) : BackV intC n n :=
  ⟨_, rfl, by simp, by simp [intC, parseInt_itoa_10 n h]⟩

theorem back_uint {bits n : Nat} (hb : bits ≤ 64) (h : n < 2 ^ bits) : BackV (uintC bits) n n := by
  refine ⟨_, rfl, by simp, ?_⟩
  have h64 : n < 2 ^ 64 := lt_of_lt_of_le h (Nat.pow_le_pow_right (by norm_num) hb)
  have hp : parseUint (itoa (n : Int)) 10 = .ok n := by
    unfold itoa
    rw [if_neg (by omega), Int.natAbs_natCast]
    exact parseUint_toDigits_10 n (by norm_num at h64; exact h64)
  simp [uintC, hp, h]

theorem back_float {short : ℚ → Str} {q : ℚ} (h : parse64 (short q) = some q) :
    BackV (floatC short) q q := ⟨_, rfl, by simp, by simp [floatC, h]⟩

theorem back_ptr_none {α : Type} (c : Codec α) : Back (ptrC c) none none := ⟨.null, rfl, rfl⟩

theorem back_ptr_some {α : Type} {c : Codec α} {v w : α} (h : BackV c v w) : BackV (ptrC c) (some v) (some w) := by
  obtain ⟨j, h1, h2, h3⟩ := h
  refine ⟨j, h1, h2, ?_⟩
  cases j <;> first | exact absurd rfl h2 | simp [ptrC, h3]

theorem back_ptr {α : Type} {c : Codec α} {f : α → α} {o : Option α} (h : ∀ v, o = some v → BackV c v (f v)) :
    Back (ptrC c) o (o.map f) := by
  cases o with
  | none => exact back_ptr_none c
  | some v => exact (back_ptr_some (h v rfl)).back

theorem back_encList {α : Type} {c : Codec α} {f : α → α} : ∀ {l : List α}, (∀ a ∈ l, Back c a (f a)) →
    ∃ js, encList c l = some js ∧ js.length = l.length ∧ decList c [] js = (l.map f, true) ∧
      ∀ n, n = l.length → decArr c (List.replicate n c.zero) js = (l.map f, true)
  | [], _ => ⟨[], rfl, rfl, rfl, by rintro _ rfl; rfl⟩
  | a :: l, h => by
    obtain ⟨j, h1, h2⟩ := h a (by simp)
    obtain ⟨js, h3, h4, h5, h6⟩ := back_encList (l := l) (fun b hb => h b (by simp [hb]))
    refine ⟨j :: js, by simp [encList, h1, h3], by simp [h4], by simp [decList, h2, h5], ?_⟩
    rintro _ rfl
    rw [List.length_cons, List.replicate_succ]
    simp [decArr, h2, h6 _ rfl]

theorem back_slice_none {α : Type} (c : Codec α) : Back (sliceC c) none none := ⟨.null, rfl, rfl⟩

theorem back_slice_some {α : Type} {c : Codec α} {f : α → α} {l : List α} (h : ∀ a ∈ l, Back c a (f a)) :
    BackV (sliceC c) (some l) (some (l.map f)) := by
  obtain ⟨js, h1, _, h3, _⟩ := back_encList h
  exact ⟨.arr js, by simp [sliceC, h1], by simp, by simp [sliceC, h3]⟩

theorem back_slice {α : Type} {c : Codec α} {f : α → α} {o : Option (List α)}
    (h : ∀ l, o = some l → ∀ a ∈ l, Back c a (f a)) : Back (sliceC c) o (o.map (·.map f)) := by
  cases o with
  | none => exact back_slice_none c
  | some l => exact (back_slice_some (h l rfl)).back

theorem back_slice_id {α : Type} {c : Codec α} {o : Option (List α)}
    (h : ∀ l, o = some l → ∀ a ∈ l, Back c a a) : Back (sliceC c) o o := by
  have := back_slice (f := id) h
  simpa using this

theorem back_array {α : Type} {c : Codec α} {n : Nat} {l : List α} (hl : l.length = n) (h : ∀ a ∈ l, Back c a a) :
    BackV (arrayC n c) l l := by
  obtain ⟨js, h1, _, _, h4⟩ := back_encList (f := id) h
  exact ⟨.arr js, by simp [arrayC, h1], by simp, by simp [arrayC, h4 n hl.symm]⟩

/-! ### Maps -/

theorem mapSet_snoc {α : Type} (k : Str) (v : α) : ∀ (m : List (Str × α)), (∀ e ∈ m, e.1 < k) →
    mapSet k v m = m ++ [(k, v)]
  | [], _ => rfl
  | (k', v') :: r, h => by
    have h1 := h (k', v') (by simp)
    simp only [mapSet]
    rw [if_neg (by rintro rfl; exact List.lt_irrefl _ h1), if_neg (by exact fun h2 => List.lt_asymm h1 h2),
      mapSet_snoc k v r (fun e he => h e (by simp [he]))]
    rfl

/-- Keys in strictly ascending order: the map as a list. -/
def Sorted {α : Type} (m : List (Str × α)) : Prop := m.Pairwise fun a b => a.1 < b.1

theorem back_encMap {α : Type} {c : Codec α} {f : α → α} : ∀ {m : List (Str × α)}, (∀ e ∈ m, Back c e.2 (f e.2)) →
    Sorted m → ∃ js, encMap c m = some js ∧ js.map Prod.fst = m.map Prod.fst ∧
      ∀ p : List (Str × α), (∀ e ∈ p, ∀ e' ∈ m, e.1 < e'.1) →
        decMap c p js = (p ++ m.map (fun e => (e.1, f e.2)), true)
  | [], _, _ => ⟨[], rfl, rfl, by simp [decMap]⟩
  | (k, a) :: m, h, hs => by
    obtain ⟨j, h1, h2⟩ := h (k, a) (by simp)
    have hs' := List.pairwise_cons.mp hs
    obtain ⟨js, h3, h4, h5⟩ := back_encMap (m := m) (fun b hb => h b (by simp [hb])) hs'.2
    refine ⟨(k, j) :: js, by simp only [encMap]; simp only at h1; rw [h1, h3], by simp [h4], ?_⟩
    intro p hp
    simp only at h2
    simp only [decMap, h2]
    rw [mapSet_snoc _ _ _ (fun e he => hp e he (k, a) (by simp)), h5]
    · simp
    · intro e he e' he'
      rw [List.mem_append, List.mem_singleton] at he
      rcases he with he | rfl
      · exact hp e he e' (by simp [he'])
      · exact hs'.1 e' he'

theorem back_map_none {α : Type} (c : Codec α) : Back (mapC c) none none := ⟨.null, rfl, rfl⟩

theorem back_map_some {α : Type} {c : Codec α} {f : α → α} {m : List (Str × α)} (h : ∀ e ∈ m, Back c e.2 (f e.2))
    (hs : Sorted m) : BackV (mapC c) (some m) (some (m.map fun e => (e.1, f e.2))) := by
  obtain ⟨js, h1, _, h3⟩ := back_encMap h hs
  exact ⟨.obj js, by simp [mapC, h1], by simp, by simp [mapC, h3]⟩

theorem back_map_id {α : Type} {c : Codec α} {o : Option (List (Str × α))}
    (h : ∀ m, o = some m → Sorted m ∧ ∀ e ∈ m, Back c e.2 e.2) : Back (mapC c) o o := by
  cases o with
  | none => exact back_map_none c
  | some m =>
    have := (back_map_some (f := id) (h m rfl).2 (h m rfl).1).back
    simpa using this

/-! ### Structs -/

/-- Every field reads back; a field that is left out reads as zero. -/
def Rec.BackAll : {β : Type} → Rec β → β → β → Prop
  | _, .nil, _, _ => True
  | _, .cons _ om c r, v, w =>
    (if om && c.empty v.1 then w.1 = c.zero else Back c v.1 w.1) ∧ r.BackAll v.2 w.2

/-- Names that no two fields share, up to case. -/
def Rec.Distinct {β : Type} (r : Rec β) : Prop := (r.keys.map fold).Nodup

/-- Decode several values one after the other. -/
def decAll {α : Type} (c : Codec α) : α → List J → α × Bool
  | a, [] => (a, true)
  | a, j :: js => ((decAll c (c.dec a j).1 js).1, (c.dec a j).2 && (decAll c (c.dec a j).1 js).2)

/-- The values of the members with a name, up to case. -/
def valuesOf (k : Str) (ms : List (Str × J)) : List J :=
  (ms.filter fun m => fold k == fold m.1).map Prod.snd

/-- Every field decodes the members with its name. -/
def Rec.gather : {β : Type} → Rec β → β → List (Str × J) → β × Bool
  | _, .nil, _, _ => ((), true)
  | _, .cons k _ c r, v, ms =>
    (((decAll c v.1 (valuesOf k ms)).1, (r.gather v.2 ms).1), (decAll c v.1 (valuesOf k ms)).2 && (r.gather v.2 ms).2)

theorem valuesOf_cons (k : Str) (m : Str × J) (ms : List (Str × J)) :
    valuesOf k (m :: ms) = if fold k = fold m.1 then m.2 :: valuesOf k ms else valuesOf k ms := by
  unfold valuesOf
  by_cases h : fold k = fold m.1 <;> simp [h]

theorem gather_nil : ∀ {β : Type} (r : Rec β) (v : β), r.gather v [] = (v, true)
  | _, .nil, _ => rfl
  | _, .cons k om c r, v => by
    simp only [Rec.gather, gather_nil r]
    simp [valuesOf, decAll]

theorem gather_cons : ∀ {β : Type} (r : Rec β) (v : β) (m : Str × J) (ms : List (Str × J)),
    r.gather v (m :: ms) =
      ((r.gather (r.gather v [m]).1 ms).1, (r.gather v [m]).2 && (r.gather (r.gather v [m]).1 ms).2)
  | _, .nil, _, _, _ => rfl
  | _, .cons k om c r, v, m, ms => by
    simp only [Rec.gather]
    rw [gather_cons r v.2 m ms, valuesOf_cons, valuesOf_cons]
    by_cases h : fold k = fold m.1
    · rw [if_pos h, if_pos h]
      simp only [decAll, valuesOf, List.filter_nil, List.map_nil, Bool.and_true]
      refine Prod.ext rfl ?_
      simp only
      cases (c.dec v.1 m.2).2 <;> cases (r.gather v.2 [m]).2 <;> simp
    · rw [if_neg h, if_neg h]
      simp only [decAll, valuesOf, List.filter_nil, List.map_nil, Bool.true_and]
      refine Prod.ext rfl ?_
      simp only
      cases (r.gather v.2 [m]).2 <;> simp

theorem gather_foreign : ∀ {β : Type} (r : Rec β) (v : β) (m : Str × J), (∀ k ∈ r.keys, fold k ≠ fold m.1) →
    r.gather v [m] = (v, true)
  | _, .nil, _, _, _ => rfl
  | _, .cons k om c r, v, m, h => by
    simp only [Rec.gather]
    rw [gather_foreign r v.2 m (fun k' hk => h k' (by simp [Rec.keys, hk])), valuesOf_cons,
      if_neg (h k (by simp [Rec.keys]))]
    simp [valuesOf, decAll]

theorem put_none : ∀ {β : Type} (p : Str → Bool) (r : Rec β) (v : β) (j : J),
    r.put p v j = none ↔ ∀ k ∈ r.keys, p k = false
  | _, _, .nil, _, _ => by simp [Rec.put, Rec.keys]
  | _, p, .cons k om c r, v, j => by
    simp only [Rec.put, Rec.keys, List.mem_cons, forall_eq_or_imp]
    by_cases h : p k = true
    · simp [h]
    · rw [if_neg h]
      have := put_none p r v.2 j
      cases hp : r.put p v.2 j with
      | none => rw [hp] at this; simp [h]; exact this.mp rfl
      | some b =>
        rw [hp] at this
        simp only [reduceCtorEq, false_iff] at this ⊢
        exact fun h' => this h'.2

theorem put_some : ∀ {β : Type} (p : Str → Bool) (r : Rec β) (v : β) (m : Str × J) (b : β × Bool),
    (∀ k, p k = true → fold k = fold m.1) → (r.keys.map fold).Nodup → r.put p v m.2 = some b → r.gather v [m] = b
  | _, _, .nil, _, _, _, _, _, h => by simp [Rec.put] at h
  | _, p, .cons k om c r, v, m, b, hp, hd, h => by
    simp only [Rec.put] at h
    rw [Rec.keys, List.map_cons, List.nodup_cons] at hd
    by_cases hk : p k = true
    · rw [if_pos hk] at h
      cases h
      simp only [Rec.gather]
      rw [gather_foreign r v.2 m, valuesOf_cons, if_pos (hp k hk)]
      · simp [valuesOf, decAll]
      · intro k' hk' he
        apply hd.1
        rw [hp k hk, ← he]
        exact List.mem_map_of_mem hk'
    · rw [if_neg hk] at h
      cases hb : r.put p v.2 m.2 with
      | none => rw [hb] at h; simp at h
      | some b' =>
        rw [hb] at h
        cases h
        have := put_some p r v.2 m b' hp hd.2 hb
        simp only [Rec.gather]
        rw [this, valuesOf_cons, if_neg]
        · simp [valuesOf, decAll]
        · intro he
          apply hd.1
          by_contra hc
          have hf : r.gather v.2 [m] = (v.2, true) := gather_foreign r v.2 m (by
            intro k' hk' he'
            exact hc (by rw [he, ← he']; exact List.mem_map_of_mem hk'))
          have : ∀ k' ∈ r.keys, p k' = false := by
            intro k' hk'
            by_contra hq
            exact hc (by rw [he, ← hp k' (by simpa using hq)]; exact List.mem_map_of_mem hk')
          rw [(put_none p r v.2 m.2).mpr this] at hb
          cases hb

theorem member_gather {β : Type} (r : Rec β) (hd : r.Distinct) (v : β) (m : Str × J) :
    r.member v m = r.gather v [m] := by
  unfold Rec.member
  cases h1 : r.put (fun k => k == m.1) v m.2 with
  | some b =>
    exact (put_some _ r v m b (by intro k hk; simp only [beq_iff_eq] at hk; rw [hk]) hd h1).symm
  | none =>
    simp only
    cases h2 : r.put (fun k => fold k == fold m.1) v m.2 with
    | some b => exact (put_some _ r v m b (by intro k hk; simpa using hk) hd h2).symm
    | none =>
      have := (put_none _ _ _ _).mp h2
      exact (gather_foreign r v m (by simpa using this)).symm

theorem members_gather {β : Type} (r : Rec β) (hd : r.Distinct) : ∀ (ms : List (Str × J)) (v : β),
    r.members v ms = r.gather v ms
  | [], v => (gather_nil r v).symm
  | m :: ms, v => by
    simp only [Rec.members]
    rw [member_gather r hd, gather_cons r v m ms, members_gather r hd ms]

theorem valuesOf_append (k : Str) (a b : List (Str × J)) : valuesOf k (a ++ b) = valuesOf k a ++ valuesOf k b := by
  simp [valuesOf]

theorem valuesOf_foreign {k : Str} {ms : List (Str × J)} (h : ∀ m ∈ ms, fold k ≠ fold m.1) : valuesOf k ms = [] := by
  unfold valuesOf
  rw [List.filter_eq_nil_iff.mpr (by simpa using h)]
  rfl

/-- The keys written are keys of fields. -/
theorem encAll_keys : ∀ {β : Type} (r : Rec β) (v : β) (ms : List (Str × J)), r.encAll v = some ms →
    ∀ m ∈ ms, m.1 ∈ r.keys
  | _, .nil, _, ms, h => by simp [Rec.encAll] at h; subst h; simp
  | _, .cons k om c r, v, ms, h => by
    simp only [Rec.encAll] at h
    intro m hm
    by_cases ho : (om && c.empty v.1) = true
    · rw [if_pos ho] at h
      exact List.mem_cons_of_mem _ (encAll_keys r v.2 ms h m hm)
    · rw [if_neg ho] at h
      cases h1 : c.enc v.1 with
      | none => rw [h1] at h; simp at h
      | some j =>
        cases h2 : r.encAll v.2 with
        | none => rw [h1, h2] at h; simp at h
        | some ms' =>
          rw [h1, h2] at h
          cases h
          rcases List.mem_cons.mp hm with rfl | hm
          · simp [Rec.keys]
          · exact List.mem_cons_of_mem _ (encAll_keys r v.2 ms' h2 m hm)

theorem gather_encAll : ∀ {β : Type} (r : Rec β) (v w : β), r.Distinct → r.BackAll v w →
    ∃ ms, r.encAll v = some ms ∧ ∀ pre : List (Str × J), (∀ m ∈ pre, ∀ k ∈ r.keys, fold k ≠ fold m.1) →
      r.gather r.zero (pre ++ ms) = (w, true)
  | _, .nil, _, _, _, _ => ⟨[], rfl, by intros; rfl⟩
  | _, .cons k om c r, v, w, hd, hb => by
    simp only [Rec.Distinct, Rec.keys, List.map_cons, List.nodup_cons] at hd
    obtain ⟨h1, h2⟩ := hb
    obtain ⟨ms, h3, h4⟩ := gather_encAll r v.2 w.2 hd.2 h2
    have hk : ∀ m ∈ ms, fold k ≠ fold m.1 := fun m hm he =>
      hd.1 (by rw [he]; exact List.mem_map_of_mem (encAll_keys r v.2 ms h3 m hm))
    by_cases ho : (om && c.empty v.1) = true
    · rw [if_pos ho] at h1
      refine ⟨ms, by simp only [Rec.encAll]; rw [if_pos ho, h3], ?_⟩
      intro pre hpre
      have hv : valuesOf k (pre ++ ms) = [] := by
        apply valuesOf_foreign
        intro m hm
        rcases List.mem_append.mp hm with hm | hm
        · exact hpre m hm k (by simp [Rec.keys])
        · exact hk m hm
      simp only [Rec.gather, Rec.zero]
      rw [hv, h4 pre (fun m hm k' hk' => hpre m hm k' (by simp [Rec.keys, hk']))]
      simp [decAll, ← h1]
    · rw [if_neg ho] at h1
      obtain ⟨j, h5, h6⟩ := h1
      refine ⟨(k, j) :: ms, by simp only [Rec.encAll]; rw [if_neg ho, h5, h3], ?_⟩
      intro pre hpre
      have hv : valuesOf k (pre ++ (k, j) :: ms) = [j] := by
        rw [valuesOf_append, valuesOf_foreign (fun m hm => hpre m hm k (by simp [Rec.keys])), valuesOf_cons, if_pos rfl,
          valuesOf_foreign hk]
        rfl
      have hg := h4 (pre ++ [(k, j)]) (by
        intro m hm k' hk'
        rcases List.mem_append.mp hm with hm | hm
        · exact hpre m hm k' (by simp [Rec.keys, hk'])
        · rw [List.mem_singleton] at hm
          subst hm
          intro he
          exact hd.1 (by rw [← he]; exact List.mem_map_of_mem hk'))
      rw [List.append_assoc, List.singleton_append] at hg
      simp only [Rec.gather, Rec.zero]
      rw [hv, hg]
      simp [decAll, h6]

theorem back_struct {β : Type} {r : Rec β} (hd : r.Distinct) {v w : β} (h : r.BackAll v w) : BackV (structC r) v w := by
  obtain ⟨ms, h1, h2⟩ := gather_encAll r v w hd h
  refine ⟨.obj ms, by simp [structC, h1], by simp, ?_⟩
  have := h2 [] (by simp)
  simp only [structC]
  rw [members_gather r hd]
  simpa using this

theorem back_iso {α β : Type} {c : Codec β} {split : α → β} {join : β → α} (hz : split (join c.zero) = c.zero)
    {v w : α} (h : BackV c (split v) (split w)) (hw : join (split w) = w) : BackV (c.iso split join) v w := by
  obtain ⟨j, h1, h2, h3⟩ := h
  refine ⟨j, h1, h2, ?_⟩
  simp only [Codec.iso]
  rw [hz, h3]
  simp [hw]

/-! ### `interface{}` -/

mutual
/-- What decoding can put into an `interface{}`; numbers are float64. -/
def Dyn.Plain (ok : ℚ → Prop) : Dyn → Prop
  | .nil => True
  | .bool _ => True
  | .num q => ok q
  | .int _ => False
  | .str _ => True
  | .list l => Dyn.PlainL ok l
  | .map m => Sorted m ∧ Dyn.PlainM ok m
def Dyn.PlainL (ok : ℚ → Prop) : List Dyn → Prop
  | [] => True
  | d :: ds => Dyn.Plain ok d ∧ Dyn.PlainL ok ds
def Dyn.PlainM (ok : ℚ → Prop) : List (Str × Dyn) → Prop
  | [] => True
  | (_, d) :: ds => Dyn.Plain ok d ∧ Dyn.PlainM ok ds
end

mutual
theorem dyn_back {short : ℚ → Str} {ok : ℚ → Prop} (hs : ∀ q, ok q → parse64 (short q) = some q) :
    ∀ d : Dyn, d.Plain ok → Dyn.dec (d.enc short) = (d, true)
  | .nil, _ => by simp [Dyn.enc, Dyn.dec]
  | .bool b, _ => by simp [Dyn.enc, Dyn.dec]
  | .num q, h => by simp only [Dyn.Plain] at h; simp [Dyn.enc, Dyn.dec, hs q h]
  | .int n, h => by simp [Dyn.Plain] at h
  | .str s, _ => by simp [Dyn.enc, Dyn.dec]
  | .list l, h => by
    simp only [Dyn.Plain] at h
    simp [Dyn.enc, Dyn.dec, dyn_backL hs l h]
  | .map m, h => by
    simp only [Dyn.Plain] at h
    have := dyn_backM hs m h.1 h.2 [] (by simp)
    simp [Dyn.enc, Dyn.dec, this]
theorem dyn_backL {short : ℚ → Str} {ok : ℚ → Prop} (hs : ∀ q, ok q → parse64 (short q) = some q) :
    ∀ l : List Dyn, Dyn.PlainL ok l → Dyn.decL (Dyn.encL short l) = (l, true)
  | [], _ => by simp [Dyn.encL, Dyn.decL]
  | d :: ds, h => by
    simp only [Dyn.PlainL] at h
    simp [Dyn.encL, Dyn.decL, dyn_back hs d h.1, dyn_backL hs ds h.2]
theorem dyn_backM {short : ℚ → Str} {ok : ℚ → Prop} (hs : ∀ q, ok q → parse64 (short q) = some q) :
    ∀ m : List (Str × Dyn), Sorted m → Dyn.PlainM ok m → ∀ p : List (Str × Dyn), (∀ e ∈ p, ∀ e' ∈ m, e.1 < e'.1) →
      Dyn.decM p (Dyn.encM short m) = (p ++ m, true)
  | [], _, _, p, _ => by simp [Dyn.encM, Dyn.decM]
  | (k, d) :: ds, hsrt, h, p, hp => by
    simp only [Dyn.PlainM] at h
    have hs' := List.pairwise_cons.mp hsrt
    have h1 := dyn_back hs d h.1
    have h2 := dyn_backM hs ds hs'.2 h.2 (p ++ [(k, d)]) (by
      intro e he e' he'
      rw [List.mem_append, List.mem_singleton] at he
      rcases he with he | rfl
      · exact hp e he e' (by simp [he'])
      · exact hs'.1 e' he')
    simp only [Dyn.encM, Dyn.decM, h1]
    rw [mapSet_snoc _ _ _ (fun e he => hp e he (k, d) (by simp)), h2]
    simp
end

theorem back_any {short : ℚ → Str} {ok : ℚ → Prop} (hs : ∀ q, ok q → parse64 (short q) = some q) {d : Dyn}
    (h : d.Plain ok) : Back (anyC short) d d := ⟨_, rfl, dyn_back hs d h⟩

end Verif.Doc
