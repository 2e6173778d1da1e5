import Verif.Spec.StyleParse

/-! # Lemmas for C69 -/
namespace Verif.Style

/-- Decoded without any remembered error. -/
def Okd {α : Type} (r : Dec α) : Prop := ∃ a, r = .ok (a, false)

theorem finish_ok {α : Type} {r : Dec α} {a : α} : finish r = .ok a ↔ r = .ok (a, false) := by
  cases r with
  | error e => simp [finish]
  | ok p =>
    obtain ⟨a', b⟩ := p
    cases b <;> simp [finish]

theorem finish_okd {α : Type} {r : Dec α} : (∃ a, finish r = .ok a) ↔ Okd r := by
  simp only [finish_ok, Okd]

theorem okd_mk {α : Type} (a : α) (b : Bool) : Okd (.ok (a, b) : Dec α) ↔ b = false := by
  constructor
  · rintro ⟨a', h⟩
    cases h; rfl
  · rintro rfl; exact ⟨a, rfl⟩

theorem okd_err {α : Type} (e : Fail) : ¬ Okd (.error e : Dec α) := by
  rintro ⟨a, h⟩; cases h

theorem decFields_cons_ok {σ : Type} {f : String → Json → σ → Dec σ} {k : String} {j : Json} {fs : List (String × Json)} {s s' : σ} :
    decFields f ((k, j) :: fs) s = .ok (s', false) ↔
      ∃ s1, f k j s = .ok (s1, false) ∧ decFields f fs s1 = .ok (s', false) := by
  simp only [decFields]
  constructor
  · intro h
    split at h
    · cases h
    · rename_i s1 b1 h1
      split at h
      · cases h
      · rename_i s2 b2 h2
        simp only [Except.ok.injEq, Prod.mk.injEq, Bool.or_eq_false_iff] at h
        obtain ⟨rfl, rfl, rfl⟩ := h
        exact ⟨s1, h1, h2⟩
  · rintro ⟨s1, h1, h2⟩
    simp [h1, h2]

theorem decFields_okd {σ : Type} {f : String → Json → σ → Dec σ} {G : String → Json → Prop}
    (hG : ∀ k j s, Okd (f k j s) ↔ G k j) : ∀ (fs : List (String × Json)) (s : σ),
    Okd (decFields f fs s) ↔ ∀ p ∈ fs, G p.1 p.2
  | [], s => by simp [decFields, okd_mk]
  | (k, j) :: fs, s => by
    constructor
    · rintro ⟨s', h⟩
      obtain ⟨s1, h1, h2⟩ := decFields_cons_ok.1 h
      have r := (decFields_okd hG fs s1).1 ⟨s', h2⟩
      intro p hp
      rcases List.mem_cons.1 hp with rfl | hp
      · exact (hG k j s).1 ⟨s1, h1⟩
      · exact r p hp
    · intro h
      obtain ⟨s1, h1⟩ := (hG k j s).2 (h (k, j) (by simp))
      obtain ⟨s', h2⟩ := (decFields_okd hG fs s1).2 fun p hp => h p (List.mem_cons_of_mem _ hp)
      exact ⟨s', decFields_cons_ok.2 ⟨s1, h1, h2⟩⟩

theorem decElems_cons_ok {α : Type} {f : Json → Dec α} {j : Json} {js : List Json} {r : List α} :
    decElems f (j :: js) = .ok (r, false) ↔
      ∃ a l, f j = .ok (a, false) ∧ decElems f js = .ok (l, false) ∧ r = a :: l := by
  simp only [decElems]
  constructor
  · intro h
    split at h
    · cases h
    · rename_i s1 b1 h1
      split at h
      · cases h
      · rename_i s2 b2 h2
        simp only [Except.ok.injEq, Prod.mk.injEq, Bool.or_eq_false_iff] at h
        obtain ⟨rfl, rfl, rfl⟩ := h
        exact ⟨s1, s2, h1, h2, rfl⟩
  · rintro ⟨s1, l, h1, h2, rfl⟩
    simp [h1, h2]

theorem decElems_okd {α : Type} {f : Json → Dec α} : ∀ l : List Json, Okd (decElems f l) ↔ ∀ j ∈ l, Okd (f j)
  | [] => by simp [decElems, okd_mk]
  | j :: js => by
    constructor
    · rintro ⟨s', h⟩
      obtain ⟨a, l, h1, h2, _⟩ := decElems_cons_ok.1 h
      have r := (decElems_okd js).1 ⟨l, h2⟩
      intro p hp
      rcases List.mem_cons.1 hp with rfl | hp
      · exact ⟨a, h1⟩
      · exact r p hp
    · intro h
      obtain ⟨a, h1⟩ := h j (by simp)
      obtain ⟨l, h2⟩ := (decElems_okd js).2 fun p hp => h p (List.mem_cons_of_mem _ hp)
      exact ⟨_, decElems_cons_ok.2 ⟨a, l, h1, h2, rfl⟩⟩

theorem decElems_forall {α : Type} {f : Json → Dec α} : ∀ {l : List Json} {r : List α},
    decElems f l = .ok (r, false) → List.Forall₂ (fun j a => f j = .ok (a, false)) l r
  | [], r, h => by
    simp only [decElems, Except.ok.injEq, Prod.mk.injEq, and_true] at h
    subst h; exact .nil
  | j :: js, r, h => by
    obtain ⟨a, l, h1, h2, rfl⟩ := decElems_cons_ok.1 h
    exact .cons h1 (decElems_forall h2)

/-- A slot of the state that only the key `k` writes ends up as the member `k` leaves it. -/
theorem decFields_slot {σ α : Type} {f : String → Json → σ → Dec σ} {π : σ → α} {k : String}
    (hind : ∀ k' j s s1, k' ≠ k → f k' j s = .ok (s1, false) → π s1 = π s) :
    ∀ {fs : List (String × Json)} {s s' : σ}, (fs.map Prod.fst).Nodup → decFields f fs s = .ok (s', false) →
      (fs.lookup k = none ∧ π s' = π s) ∨
      (∃ j s0 s1, fs.lookup k = some j ∧ π s0 = π s ∧ f k j s0 = .ok (s1, false) ∧ π s' = π s1)
  | [], s, s', _, h => by
    simp only [decFields, Except.ok.injEq, Prod.mk.injEq, and_true] at h
    subst h; exact .inl ⟨rfl, rfl⟩
  | (k', j) :: fs, s, s', hd, h => by
    obtain ⟨s1, h1, h2⟩ := decFields_cons_ok.1 h
    rw [List.map_cons, List.nodup_cons] at hd
    have ih := decFields_slot hind hd.2 h2
    by_cases hk : k' = k
    · subst hk
      have hn : fs.lookup k' = none := by
        rw [List.lookup_eq_none_iff]
        intro p hp
        rw [bne_iff_ne]
        rintro rfl
        exact hd.1 (List.mem_map.2 ⟨p, hp, rfl⟩)
      rw [List.lookup_cons_self]
      rcases ih with ⟨_, e⟩ | ⟨j', _, _, e, _⟩
      · exact .inr ⟨j, s, s1, rfl, rfl, h1, e⟩
      · rw [hn] at e; cases e
    · have hl : List.lookup k ((k', j) :: fs) = fs.lookup k := by
        rw [List.lookup_cons]
        rw [beq_eq_false_iff_ne.2 (Ne.symm hk)]
      rw [hl]
      have e1 := hind k' j s s1 hk h1
      rcases ih with ⟨e, e'⟩ | ⟨j', s0, s2, e, e2, e3, e4⟩
      · exact .inl ⟨e, e'.trans e1⟩
      · exact .inr ⟨j', s0, s2, e, e2.trans e1, e3, e4⟩

/-! ## Names -/

/-- No two of the names are equal up to case. -/
def NamesOk (names : List String) : Prop := names.Pairwise fun a b => ¬ SameName a b

instance (names : List String) : Decidable (NamesOk names) := by unfold NamesOk; infer_instance

theorem canon_same (names : List String) (k : String) : SameName k (canon names k) := by
  unfold canon
  cases h : names.find? fun n => Doc.fold n.toList == Doc.fold k.toList with
  | none => exact rfl
  | some n =>
    have := List.find?_some h
    simp only [beq_iff_eq] at this
    exact this.symm

theorem canon_eq : ∀ {names : List String} {k p : String}, NamesOk names → k ∈ names → SameName p k → canon names p = k
  | [], k, p, _, h, _ => absurd h (by simp)
  | n :: names, k, p, hd, hk, hs => by
    unfold NamesOk at hd
    rw [List.pairwise_cons] at hd
    by_cases hn : SameName n p
    · have e : canon (n :: names) p = n := by
        unfold canon
        rw [List.find?_cons_of_pos (by simpa [SameName] using hn)]
        rfl
      rw [e]
      rcases List.mem_cons.1 hk with rfl | hk
      · rfl
      · exact absurd (Eq.trans hn hs) (hd.1 k hk)
    · have e : canon (n :: names) p = canon names p := by
        unfold canon
        rw [List.find?_cons_of_neg (by simpa [SameName] using hn)]
      rw [e]
      rcases List.mem_cons.1 hk with rfl | hk
      · exact absurd hs.symm hn
      · exact canon_eq hd.2 hk hs

/-- What is required of the members, up to case. -/
theorem renamed_forall {G : String → Json → Prop} {names : List String} (hn : NamesOk names)
    (hout : ∀ k j, k ∉ names → G k j) (fs : List (String × Json)) :
    (∀ p ∈ renamed names fs, G p.1 p.2) ↔ ∀ p ∈ fs, ∀ k, SameName p.1 k → G k p.2 := by
  unfold renamed
  simp only [List.mem_map, forall_exists_index, and_imp]
  constructor
  · intro h p hp k hs
    by_cases hk : k ∈ names
    · have := h _ p hp rfl
      rwa [canon_eq hn hk hs] at this
    · exact hout k _ hk
  · rintro h _ p hp rfl
    exact h p hp _ (canon_same names p.1)

theorem lookup_renamed {names : List String} (hn : NamesOk names) {k : String} (hk : k ∈ names) :
    ∀ fs : List (String × Json), (renamed names fs).lookup k = given k fs
  | [] => rfl
  | (k', j) :: fs => by
    have ih := lookup_renamed hn hk fs
    unfold given at ih ⊢
    unfold renamed at ih ⊢
    rw [List.map_cons, List.lookup_cons]
    by_cases hs : SameName k' k
    · rw [List.find?_cons_of_pos (by simpa using hs), canon_eq hn hk hs]
      simp
    · rw [List.find?_cons_of_neg (by simpa using hs)]
      have : canon names k' ≠ k := by
        intro h
        exact hs (h ▸ canon_same names k')
      rw [beq_eq_false_iff_ne.2 (Ne.symm this)]
      exact ih

theorem renamed_nodup (names : List String) : ∀ {fs : List (String × Json)}, Distinct fs → ((renamed names fs).map Prod.fst).Nodup
  | [], _ => by simp [renamed]
  | (k, j) :: fs, h => by
    unfold Distinct at h
    rw [List.pairwise_cons] at h
    have ih := renamed_nodup names h.2
    unfold renamed at ih ⊢
    rw [List.map_cons, List.map_cons, List.nodup_cons]
    refine ⟨?_, ih⟩
    simp only [List.map_map, List.mem_map, Function.comp_apply, not_exists, not_and]
    intro p hp he
    have h1 := canon_same names k
    have h2 := canon_same names p.1
    rw [he] at h2
    exact h.1 p hp (Eq.trans h1 h2.symm)

/-- A slot of the state that only the field `k` writes ends up as the member `k` leaves it. -/
theorem fields_slot {σ α : Type} {f : String → Json → σ → Dec σ} {π : σ → α} {names : List String} {k : String}
    (hn : NamesOk names) (hk : k ∈ names)
    (hind : ∀ k' j s s1, k' ≠ k → f k' j s = .ok (s1, false) → π s1 = π s) {fs : List (String × Json)} {s s' : σ}
    (hd : Distinct fs) (h : decFields f (renamed names fs) s = .ok (s', false)) :
      (given k fs = none ∧ π s' = π s) ∨
      (∃ j s0 s1, given k fs = some j ∧ π s0 = π s ∧ f k j s0 = .ok (s1, false) ∧ π s' = π s1) := by
  rw [← lookup_renamed hn hk]
  exact decFields_slot hind (renamed_nodup names hd) h

theorem numFnNames_ok : NamesOk numFnNames := by decide +kernel
theorem colFnNames_ok : NamesOk colFnNames := by decide +kernel
theorem paintNames_ok : NamesOk paintNames := by decide +kernel
theorem layoutNames_ok : NamesOk layoutNames := by decide +kernel
theorem layerNames_ok : NamesOk layerNames := by decide +kernel
theorem styleNames_ok : NamesOk styleNames := by decide +kernel

theorem renamed_one {names : List String} {k : String} (j : Json) (h1 : NamesOk names) (h2 : k ∈ names) :
    renamed names [(k, j)] = [(k, j)] := by
  unfold renamed
  rw [List.map_cons, canon_eq h1 h2 rfl]
  rfl

theorem renamed_two {names : List String} {k k' : String} (j j' : Json) (h1 : NamesOk names) (h2 : k ∈ names) (h3 : k' ∈ names) :
    renamed names [(k, j), (k', j')] = [(k, j), (k', j')] := by
  unfold renamed
  rw [List.map_cons, List.map_cons, canon_eq h1 h2 rfl, canon_eq h1 h3 rfl]
  rfl

theorem sameName_refl (k : String) : SameName k k := rfl

/-! ## Fitting -/

theorem json_bool {P : Json → Prop} {t : Ty} (h : ∀ j, t j = true ↔ P j) (j : Json) : (!t j) = false ↔ P j := by
  rw [← h j]; simp

theorem ty_str (j : Json) : Ty.str j = true ↔ OrNull IsStr j := by
  cases j <;> simp [Ty.str, OrNull, IsStr]

theorem ty_num (j : Json) : Ty.num j = true ↔ OrNull IsNum j := by
  cases j <;> simp [Ty.num, OrNull, IsNum]

theorem ty_int (j : Json) : Ty.int j = true ↔ OrNull IsInt j := by
  cases j with
  | num q =>
    simp only [Ty.int, OrNull, IsInt, reduceCtorEq, false_or, Json.num.injEq]
    rw [Option.isSome_iff_exists]
    constructor
    · rintro ⟨n, h⟩; exact ⟨q, n, rfl, h⟩
    · rintro ⟨q', n, rfl, h⟩; exact ⟨n, h⟩
  | _ => simp [Ty.int, OrNull, IsInt]

theorem ty_list {t : Ty} {P : Json → Prop} (h : ∀ j, t j = true ↔ P j) (j : Json) :
    Ty.list t j = true ↔ OrNull (ArrOf P) j := by
  cases j <;> simp [Ty.list, OrNull, ArrOf, h]

theorem ty_map {t : Ty} {P : Json → Prop} (h : ∀ j, t j = true ↔ P j) (j : Json) :
    Ty.map t j = true ↔ OrNull (ObjOf fun _ => P) j := by
  cases j with
  | obj l =>
    simp only [Ty.map, OrNull, ObjOf, reduceCtorEq, false_or, Json.obj.injEq, exists_eq_left', List.all_eq_true, h]
    exact ⟨fun h p hp _ _ => h p hp, fun h p hp => h p hp p.1 rfl⟩
  | _ => simp [Ty.map, OrNull, ObjOf]

theorem ty_struct {names : List String} {t : String → Ty} {P : String → Json → Prop} (hn : NamesOk names)
    (hout : ∀ k j, k ∉ names → P k j) (h : ∀ k j, t k j = true ↔ P k j) (j : Json) :
    Ty.struct names t j = true ↔ OrNull (ObjOf P) j := by
  cases j with
  | obj l =>
    simp only [Ty.struct, OrNull, ObjOf, reduceCtorEq, false_or, Json.obj.injEq, exists_eq_left', List.all_eq_true, h]
    exact renamed_forall hn hout l
  | _ => simp [Ty.struct, OrNull, ObjOf]

theorem ty_iface (j : Json) : Ty.iface j = true ↔ j = .null := by
  cases j <;> simp [Ty.iface]

theorem ty_any (j : Json) : Ty.any j = true ↔ j.sane = true := by simp [Ty.any]

theorem ty_skip (j : Json) : Ty.skip j = true ↔ True := by simp [Ty.skip]

theorem strField_ok (old : String) (j : Json) : (strField old j).2 = false ↔ OrNull IsStr j := by
  cases j <;> simp [strField, OrNull, IsStr]

theorem optNumField_ok (old : Option ℚ) (j : Json) : (optNumField old j).2 = false ↔ OrNull IsNum j := by
  cases j <;> simp [optNumField, OrNull, IsNum]

theorem numStop_ok {j : Json} {s : NumStop ℚ} :
    numStop j = .ok s ↔ ∃ z v more, j = .arr (.num z :: .num v :: more) ∧ s = ⟨z.val, v.val⟩ := by
  unfold numStop
  split
  · rename_i z v more
    simp only [Except.ok.injEq, Json.arr.injEq, List.cons.injEq, Json.num.injEq]
    constructor
    · rintro rfl; exact ⟨z, v, more, ⟨rfl, rfl, rfl⟩, rfl⟩
    · rintro ⟨_, _, _, ⟨rfl, rfl, rfl⟩, rfl⟩; rfl
  · rename_i h
    simp only [reduceCtorEq, false_iff, not_exists]
    rintro z v more ⟨e, _⟩
    exact h _ _ _ (Json.arr.inj e)
  · simp
  · rename_i h1 h2
    simp only [reduceCtorEq, false_iff, not_exists]
    rintro z v more ⟨rfl, _⟩
    exact h1 _ rfl

theorem numElems_okd (l : List Json) :
    Okd (decElems (fun j => (numStop j).map fun a => (a, false)) l) ↔ ∀ j ∈ l, IsNumStop j := by
  rw [decElems_okd]
  refine forall₂_congr fun j _ => ?_
  constructor
  · rintro ⟨a, h⟩
    cases hn : numStop j with
    | error e => rw [hn] at h; cases h
    | ok s =>
      obtain ⟨z, v, more, e, _⟩ := numStop_ok.1 hn
      exact ⟨_, _, _, e⟩
  · rintro ⟨z, v, more, rfl⟩
    exact ⟨⟨z.val, v.val⟩, rfl⟩

theorem numFnField_okd (k : String) (j : Json) (s : List (NumStop ℚ) × Option ℚ) : Okd (numFnField k j s) ↔
    (k = "stops" → OrNull (ArrOf IsNumStop) j) ∧ (k = "base" → OrNull IsNum j) ∧ (k = "type" → OrNull IsStr j) := by
  unfold numFnField
  by_cases h1 : k = "stops"
  · subst h1
    rw [if_pos rfl]
    simp only [forall_const, String.reduceEq, false_implies, and_self, and_true]
    cases j with
    | arr l =>
      simp only [OrNull, ArrOf, reduceCtorEq, false_or, Json.arr.injEq, exists_eq_left']
      rw [← numElems_okd]
      split
      · rename_i e he
        rw [he]
        simp [okd_err]
      · rename_i l' b he
        rw [he]
        simp [okd_mk]
    | null => simp [okd_mk, OrNull]
    | _ => simp [okd_mk, OrNull, ArrOf]
  · rw [if_neg h1]
    by_cases h2 : k = "base"
    · subst h2
      rw [if_pos rfl]
      simp only [okd_mk, optNumField_ok]
      simp
    · rw [if_neg h2]
      by_cases h3 : k = "type"
      · subst h3
        rw [if_pos rfl, okd_mk, json_bool ty_str]
        simp
      · rw [if_neg h3, okd_mk]
        simp [h1, h2, h3]

theorem map_okd {α β : Type} (r : Except Fail α) (g : α → β) : (∃ b, r.map g = .ok b) ↔ ∃ a, r = .ok a := by
  cases r <;> simp [Except.map]

theorem numberOf_ok (j : Json) : (∃ p, numberOf j = .ok p) ↔ FitNumber j := by
  cases j with
  | num q => simp [numberOf, FitNumber, IsNum, Json.sane]
  | obj l =>
    by_cases hsane : Json.saneM l = true
    swap
    · simp [numberOf, FitNumber, Json.sane, hsane]
    simp only [FitNumber, Json.sane, hsane, true_and]
    simp only [numberOf, hsane, Bool.not_true, Bool.false_eq_true, if_false, map_okd, finish_okd, decFields_okd numFnField_okd]
    rw [renamed_forall (G := fun k j => (k = "stops" → OrNull (ArrOf IsNumStop) j) ∧ (k = "base" → OrNull IsNum j) ∧
      (k = "type" → OrNull IsStr j)) numFnNames_ok
      (fun k j hk => by simp only [numFnNames, List.mem_cons, List.not_mem_nil, or_false, not_or] at hk; simp [hk])]
    simp only [IsNum, ObjOf, reduceCtorEq, exists_false, false_or, Json.obj.injEq, exists_eq_left']
  | _ =>
    simp only [numberOf, FitNumber, IsNum, ObjOf, reduceCtorEq, exists_false, false_or, false_and, or_false, and_false, iff_false, not_exists]
    intro p
    split <;> simp

theorem colStop_ok {rnd : ℚ → ℚ} {imp : Nat} {j : Json} {s : ColStop ℚ} :
    colStop rnd imp j = .ok s ↔ ∃ z str c more, j = .arr (.num z :: .str str :: more) ∧
      strToColor rnd str.toList 255 = .ok c ∧ s = ⟨z.val, c.color imp⟩ := by
  unfold colStop
  split
  · rename_i z str more
    cases hc : strToColor rnd str.toList 255 with
    | error e =>
      simp only [Except.map, reduceCtorEq, false_iff]
      rintro ⟨z', str', c, more', e1, e2, _⟩
      simp only [Json.arr.injEq, List.cons.injEq, Json.num.injEq, Json.str.injEq] at e1
      obtain ⟨_, rfl, _⟩ := e1
      rw [hc] at e2; cases e2
    | ok c =>
      simp only [Except.map, Except.ok.injEq]
      constructor
      · rintro rfl; exact ⟨z, str, c, more, rfl, hc, rfl⟩
      · rintro ⟨z', str', c', more', e1, e2, e3⟩
        simp only [Json.arr.injEq, List.cons.injEq, Json.num.injEq, Json.str.injEq] at e1
        obtain ⟨rfl, rfl, _⟩ := e1
        rw [hc] at e2; cases e2
        exact e3.symm
  · rename_i h
    simp only [reduceCtorEq, false_iff]
    rintro ⟨_, _, _, _, e, _⟩
    exact h _ _ _ (Json.arr.inj e)
  · simp
  · rename_i h1 h2
    simp only [reduceCtorEq, false_iff]
    rintro ⟨_, _, _, _, rfl, _⟩
    exact h1 _ rfl

theorem colElem_ok {rnd : ℚ → ℚ} {imp : Nat} {j : Json} {s : Option (ColStop ℚ)} :
    colElem rnd imp j = .ok (s, false) ↔
      match s with
      | none => j = .null
      | some s => ∃ z str c more, j = .arr (.num z :: .str str :: more) ∧
        strToColor rnd str.toList 255 = .ok c ∧ s = ⟨z.val, c.color imp⟩ := by
  unfold colElem
  split
  · cases s <;> simp
  · rename_i hj
    cases s with
    | none =>
      cases hc : colStop rnd imp j with
      | error e => simpa [Except.map] using hj
      | ok c => simpa [Except.map] using hj
    | some s =>
      simp only [← colStop_ok]
      cases hc : colStop rnd imp j with
      | error e => simp [Except.map]
      | ok c => simp [Except.map]

theorem colElem_okd (rnd : ℚ → ℚ) (imp : Nat) (j : Json) : Okd (colElem rnd imp j) ↔ OrNull (IsColStop rnd) j := by
  constructor
  · rintro ⟨s, h⟩
    have := colElem_ok.1 h
    cases s with
    | none => exact .inl this
    | some s =>
      obtain ⟨z, str, c, more, e, hc, _⟩ := this
      exact .inr ⟨_, str, more, e, c, hc⟩
  · rintro (rfl | ⟨z, s, more, rfl, c, hc⟩)
    · exact ⟨none, rfl⟩
    · exact ⟨some ⟨z.val, c.color imp⟩, colElem_ok.2 ⟨z, s, c, more, rfl, hc, rfl⟩⟩

theorem colFnField_okd (rnd : ℚ → ℚ) (imp : Nat) (k : String) (j : Json) (s : List (Option (ColStop ℚ)) × Option ℚ) :
    Okd (colFnField rnd imp k j s) ↔
    (k = "stops" → OrNull (ArrOf (OrNull (IsColStop rnd))) j) ∧ (k = "base" → OrNull IsNum j) := by
  unfold colFnField
  by_cases h1 : k = "stops"
  · subst h1
    rw [if_pos rfl]
    simp only [forall_const, String.reduceEq, false_implies, and_true]
    cases j with
    | arr l =>
      simp only [OrNull, ArrOf, reduceCtorEq, false_or, Json.arr.injEq, exists_eq_left']
      have : Okd (decElems (colElem rnd imp) l) ↔ ∀ e ∈ l, e = Json.null ∨ IsColStop rnd e := by
        rw [decElems_okd]
        exact forall₂_congr fun j _ => colElem_okd rnd imp j
      rw [← this]
      split
      · rename_i e he
        rw [he]
        simp [okd_err]
      · rename_i l' b he
        rw [he]
        simp [okd_mk]
    | null => simp [okd_mk, OrNull]
    | _ => simp [okd_mk, OrNull, ArrOf]
  · rw [if_neg h1]
    by_cases h2 : k = "base"
    · subst h2
      rw [if_pos rfl]
      simp only [okd_mk, optNumField_ok]
      simp
    · rw [if_neg h2, okd_mk]
      simp [h1, h2]

theorem colourOf_ok (rnd : ℚ → ℚ) (imp : Nat) (j : Json) : (∃ p, colourOf rnd imp j = .ok p) ↔ FitColour rnd j := by
  cases j with
  | str s => simp [colourOf, map_okd, FitColour, Colour, ObjOf, Json.sane]
  | obj l =>
    by_cases hsane : Json.saneM l = true
    swap
    · simp [colourOf, FitColour, Json.sane, hsane]
    simp only [FitColour, Json.sane, hsane, true_and]
    simp only [colourOf, hsane, Bool.not_true, Bool.false_eq_true, if_false, map_okd, finish_okd, decFields_okd (colFnField_okd rnd imp)]
    rw [renamed_forall (G := fun k j => (k = "stops" → OrNull (ArrOf (OrNull (IsColStop rnd))) j) ∧ (k = "base" → OrNull IsNum j))
      colFnNames_ok
      (fun k j hk => by simp only [colFnNames, List.mem_cons, List.not_mem_nil, or_false, not_or] at hk; simp [hk])]
    simp only [ObjOf, reduceCtorEq, false_and, exists_false, false_or, Json.obj.injEq, exists_eq_left']
  | _ =>
    simp only [colourOf, FitColour, ObjOf, reduceCtorEq, exists_false, false_or, false_and, or_false, and_false, iff_false, not_exists]
    intro p
    split <;> simp

/-- Decoding a pointer to a type with `UnmarshalJSON`. -/
theorem ptr_okd {α σ : Type} (g : Json → Except Fail α) (P : Json → Prop) (hg : ∀ j, (∃ a, g j = .ok a) ↔ P j)
    (nul : σ) (put : α → σ) (j : Json) :
    Okd (ptrField g nul put j) ↔ OrNull P j := by
  unfold ptrField
  split
  · simp [okd_mk, OrNull]
  · rename_i hj
    rw [OrNull, ← hg j]
    split
    · rename_i e he
      rw [he]
      simpa [okd_err] using hj
    · rename_i c hc
      rw [hc]
      simp [okd_mk]

theorem paintField_okd (rnd : ℚ → ℚ) (imp : Nat) (k : String) (j : Json) (p : Paint) : Okd (paintField rnd imp k j p) ↔
    (k ∈ ["background-color", "fill-color", "line-color", "fill-outline-color", "text-color", "text-halo-color"] →
      OrNull (FitColour rnd) j) ∧
    (k ∈ ["fill-opacity", "line-gap-width", "line-opacity", "line-width"] → OrNull FitNumber j) ∧
    (k = "line-dasharray" → OrNull (ArrOf (OrNull IsNum)) j) ∧
    (k ∈ ["line-offset", "text-halo-blur", "text-halo-width"] → OrNull IsNum j) ∧
    (k ∈ ["fill-antialias", "fill-translate", "fill-pattern"] → j.sane = true) := by
  unfold paintField
  by_cases h1 : k ∈ colourNames
  · rw [if_pos h1, ptr_okd _ _ (colourOf_ok rnd imp)]
    simp only [colourNames, List.mem_cons, List.not_mem_nil, or_false] at h1
    rcases h1 with rfl | rfl | rfl | rfl | rfl | rfl <;> simp
  · rw [if_neg h1]
    have g1 : k ∈ ["background-color", "fill-color", "line-color", "fill-outline-color", "text-color", "text-halo-color"] →
      OrNull (FitColour rnd) j := fun h => absurd h h1
    by_cases h2 : k ∈ numberNames
    · rw [if_pos h2, ptr_okd _ _ numberOf_ok]
      simp only [numberNames, List.mem_cons, List.not_mem_nil, or_false] at h2
      rcases h2 with rfl | rfl | rfl | rfl <;> simp
    · rw [if_neg h2, okd_mk]
      have g2 : k ∈ ["fill-opacity", "line-gap-width", "line-opacity", "line-width"] → OrNull FitNumber j :=
        fun h => absurd h h2
      simp only [iff_true_intro g1, iff_true_intro g2, true_and]
      unfold paintTy
      by_cases h3 : k = "line-dasharray"
      · subst h3
        rw [if_pos rfl, json_bool (ty_list ty_num)]
        simp
      · rw [if_neg h3]
        by_cases h4 : k = "line-offset" ∨ k = "text-halo-blur" ∨ k = "text-halo-width"
        · rw [if_pos h4, json_bool ty_num]
          rcases h4 with rfl | rfl | rfl <;> simp
        · rw [if_neg h4]
          by_cases h5 : k ∈ ["fill-antialias", "fill-translate", "fill-pattern"]
          · rw [if_pos h5, json_bool ty_any]
            simp only [h5, forall_const]
            simp only [List.mem_cons, List.not_mem_nil, or_false, h3, h4, false_implies, true_and]
          · rw [if_neg h5, json_bool ty_skip]
            simp only [h5, false_implies, and_true]
            simp only [List.mem_cons, List.not_mem_nil, or_false, h3, h4, false_implies, and_self]

theorem layoutField_okd (k : String) (j : Json) (p : String → NumProp ℚ) : Okd (layoutField k j p) ↔
    (k ∈ ["text-size", "icon-size"] → OrNull FitNumber j) ∧
    (k ∈ ["visibility", "line-cap", "line-join", "text-field", "text-rotation-alignment", "text-transform", "text-anchor",
      "icon-image"] → OrNull IsStr j) ∧
    (k = "text-font" → OrNull (ArrOf (OrNull IsStr)) j) ∧
    (k ∈ ["text-letter-spacing", "text-max-width", "symbol-spacing", "text-padding"] → OrNull IsNum j) ∧
    (k = "text-offset" → OrNull (ArrOf (OrNull IsNum)) j) ∧
    (k = "symbol-placement" → j.sane = true) := by
  unfold layoutField
  by_cases h1 : k = "text-size" ∨ k = "icon-size"
  · rw [if_pos h1, ptr_okd _ _ numberOf_ok]
    rcases h1 with rfl | rfl <;> simp
  · rw [if_neg h1, okd_mk]
    have g1 : k ∈ ["text-size", "icon-size"] → OrNull FitNumber j := fun h => absurd (by simpa using h) h1
    simp only [iff_true_intro g1, true_and]
    unfold layoutTy
    by_cases h2 : k ∈ ["visibility", "line-cap", "line-join", "text-field", "text-rotation-alignment", "text-transform",
      "text-anchor", "icon-image"]
    · rw [if_pos h2, json_bool ty_str]
      simp only [h2, forall_const]
      simp only [List.mem_cons, List.not_mem_nil, or_false] at h2
      rcases h2 with rfl | rfl | rfl | rfl | rfl | rfl | rfl | rfl <;> simp
    · rw [if_neg h2]
      simp only [iff_false_intro h2, false_implies, true_and]
      by_cases h3 : k = "text-font"
      · subst h3
        rw [if_pos rfl, json_bool (ty_list ty_str)]
        simp
      · rw [if_neg h3]
        by_cases h4 : k ∈ ["text-letter-spacing", "text-max-width", "symbol-spacing", "text-padding"]
        · rw [if_pos h4, json_bool ty_num]
          simp only [h4, forall_const]
          simp only [List.mem_cons, List.not_mem_nil, or_false] at h4
          rcases h4 with rfl | rfl | rfl | rfl <;> simp
        · rw [if_neg h4]
          by_cases h5 : k = "text-offset"
          · subst h5
            rw [if_pos rfl, json_bool (ty_list ty_num)]
            simp
          · rw [if_neg h5]
            by_cases h6 : k = "symbol-placement"
            · subst h6; rw [if_pos rfl, json_bool ty_any]
              simp
            · rw [if_neg h6, json_bool ty_skip]
              simp only [h3, h4, h5, h6, false_implies, and_self]

/-- Decoding a struct or a pointer to one. -/
theorem obj_okd {σ τ : Type} {names : List String} (hn : NamesOk names) (f : String → Json → σ → Dec σ) (G : String → Json → Prop)
    (hout : ∀ k j, k ∉ names → G k j) (hG : ∀ k j s, Okd (f k j s) ↔ G k j)
    (z : σ) (nul bad : τ) (put : σ → τ) (j : Json) :
    Okd (structField names f z nul bad put j) ↔ OrNull (ObjOf G) j := by
  unfold structField
  cases j with
  | null => simp [okd_mk, OrNull]
  | obj fs =>
    simp only [OrNull, ObjOf, reduceCtorEq, false_or, Json.obj.injEq, exists_eq_left']
    rw [← renamed_forall hn hout, ← decFields_okd hG (renamed names fs) z]
    split
    · rename_i e he
      rw [he]; simp [okd_err]
    · rename_i p b he
      rw [he]; simp [okd_mk]
  | _ => simp [okd_mk, OrNull, ObjOf]

theorem decOver_cons_ok {α : Type} {f : α → Json → Dec α} {z : α} {old : List α} {j : Json} {js : List Json} {r : List α} :
    decOver f z old (j :: js) = .ok (r, false) ↔
      ∃ a l, f (old.headD z) j = .ok (a, false) ∧ decOver f z old.tail js = .ok (l, false) ∧ r = a :: l := by
  simp only [decOver]
  constructor
  · intro h
    split at h
    · cases h
    · rename_i s1 b1 h1
      split at h
      · cases h
      · rename_i s2 b2 h2
        simp only [Except.ok.injEq, Prod.mk.injEq, Bool.or_eq_false_iff] at h
        obtain ⟨rfl, rfl, rfl⟩ := h
        exact ⟨s1, s2, h1, h2, rfl⟩
  · rintro ⟨s1, l, h1, h2, rfl⟩
    rw [h1]
    simp only [h2, Bool.or_false]

theorem decOver_okd {α : Type} {f : α → Json → Dec α} {z : α} {P : Json → Prop} (hP : ∀ a j, Okd (f a j) ↔ P j) :
    ∀ (l : List Json) (old : List α), Okd (decOver f z old l) ↔ ∀ j ∈ l, P j
  | [], old => by simp [decOver, okd_mk]
  | j :: js, old => by
    constructor
    · rintro ⟨s', h⟩
      obtain ⟨a, l, h1, h2, _⟩ := decOver_cons_ok.1 h
      have r := (decOver_okd hP js _).1 ⟨l, h2⟩
      intro p hp
      rcases List.mem_cons.1 hp with rfl | hp
      · exact (hP _ _).1 ⟨a, h1⟩
      · exact r p hp
    · intro h
      obtain ⟨a, h1⟩ := (hP (old.headD z) j).2 (h j (by simp))
      obtain ⟨l, h2⟩ := (decOver_okd hP js old.tail).2 fun p hp => h p (List.mem_cons_of_mem _ hp)
      exact ⟨_, decOver_cons_ok.2 ⟨a, l, h1, h2, rfl⟩⟩

theorem decOver_nil {α : Type} {f : α → Json → Dec α} {z : α} : ∀ {l : List Json} {r : List α},
    decOver f z [] l = .ok (r, false) → List.Forall₂ (fun j a => f z j = .ok (a, false)) l r
  | [], r, h => by
    simp only [decOver, Except.ok.injEq, Prod.mk.injEq, and_true] at h
    subst h; exact .nil
  | j :: js, r, h => by
    obtain ⟨a, l, h1, h2, rfl⟩ := decOver_cons_ok.1 h
    exact .cons h1 (decOver_nil h2)

theorem layerField_okd (rnd : ℚ → ℚ) (imp : Nat) (k : String) (j : Json) (l : LayerDoc) : Okd (layerField rnd imp k j l) ↔
    (k = "filter" → ∃ f, unmarshalFilter j = .ok f) ∧
    (k ∈ ["id", "source", "source-layer", "type"] → OrNull IsStr j) ∧
    (k ∈ ["minzoom", "maxzoom"] → OrNull IsNum j) ∧
    (k = "paint" → OrNull (FitPaint rnd) j) ∧
    (k = "layout" → OrNull FitLayout j) ∧
    (k = "metadata" → OrNull (ObjOf fun _ j => j.sane = true) j) := by
  unfold layerField
  by_cases h1 : k = "filter"
  · subst h1
    rw [if_pos rfl]
    simp only [forall_const, List.mem_cons, String.reduceEq, List.not_mem_nil, or_false, false_implies, and_true]
    split
    · rename_i e he; rw [he]; simp [okd_err]
    · rename_i f hf; rw [hf]; simp [okd_mk]
  rw [if_neg h1]
  by_cases h2 : k = "id"
  · subst h2; rw [if_pos rfl]; simp only [okd_mk, strField_ok]; simp
  rw [if_neg h2]
  by_cases h3 : k = "minzoom"
  · subst h3; rw [if_pos rfl]; simp only [okd_mk, optNumField_ok]; simp
  rw [if_neg h3]
  by_cases h4 : k = "maxzoom"
  · subst h4; rw [if_pos rfl]; simp only [okd_mk, optNumField_ok]; simp
  rw [if_neg h4]
  by_cases h5 : k = "paint"
  · subst h5
    rw [if_pos rfl, obj_okd paintNames_ok _ _ (fun k j hk => by simp only [paintNames, colourNames, numberNames, List.cons_append, List.nil_append, List.mem_cons, List.not_mem_nil, or_false, not_or] at hk; simp [hk]) (paintField_okd rnd imp)]
    simp [FitPaint]
  rw [if_neg h5]
  by_cases h6 : k = "layout"
  · subst h6
    rw [if_pos rfl, obj_okd layoutNames_ok _ _ (fun k j hk => by simp only [layoutNames, List.mem_cons, List.not_mem_nil, or_false, not_or] at hk; simp [hk]) layoutField_okd]
    simp [FitLayout]
  rw [if_neg h6]
  by_cases h7 : k = "source"
  · subst h7; rw [if_pos rfl]; simp only [okd_mk, strField_ok]; simp
  rw [if_neg h7]
  by_cases h8 : k = "source-layer"
  · subst h8; rw [if_pos rfl]; simp only [okd_mk, strField_ok]; simp
  rw [if_neg h8]
  by_cases h9 : k = "type"
  · subst h9; rw [if_pos rfl]; simp only [okd_mk, strField_ok]; simp
  rw [if_neg h9]
  by_cases h10 : k = "metadata"
  · subst h10
    rw [if_pos rfl, okd_mk, json_bool (ty_map ty_any)]
    simp
  rw [if_neg h10, okd_mk]
  simp [h1, h2, h3, h4, h5, h6, h7, h8, h9, h10]

theorem layerElem_okd (rnd : ℚ → ℚ) (imp : Nat) (old : Option LayerDoc) (j : Json) :
    Okd (layerElem rnd imp old j) ↔ OrNull (FitLayer rnd) j := by
  unfold layerElem
  rw [obj_okd layerNames_ok _ _ (fun k j hk => by simp only [layerNames, List.mem_cons, List.not_mem_nil, or_false, not_or] at hk; simp [hk]) (layerField_okd rnd imp), FitLayer]

theorem styleTy_ok (k : String) (j : Json) (hid : k ≠ "id") (hv : k ≠ "version") (hl : k ≠ "layers") : styleTy k j = true ↔
    (k ∈ ["glyphs", "name", "sprite", "id"] → OrNull IsStr j) ∧
    (k ∈ ["bearing", "pitch", "zoom"] → OrNull IsNum j) ∧
    (k = "center" → OrNull (ArrOf (OrNull IsNum)) j) ∧
    (k = "metadata" → OrNull (ObjOf fun _ j => j.sane = true) j) ∧
    (k = "sources" → OrNull (ObjOf fun _ => OrNull (ObjOf fun k j => k ∈ ["type", "url"] → OrNull IsStr j)) j) ∧
    (k = "transition" → OrNull (ObjOf fun k j => k ∈ ["delay", "duration"] → OrNull IsInt j) j) ∧
    (k = "light" → OrNull (ObjOf fun k j => (k = "anchor" → OrNull IsStr j) ∧ (k = "color" → j = .null) ∧
      (k = "intensity" → OrNull IsNum j) ∧ (k = "position" → OrNull (ArrOf (OrNull IsNum)) j)) j) := by
  unfold styleTy
  by_cases h1 : k ∈ ["bearing", "pitch", "zoom"]
  · rw [if_pos h1, ty_num]
    simp only [h1, forall_const]
    simp only [List.mem_cons, List.not_mem_nil, or_false] at h1
    rcases h1 with rfl | rfl | rfl <;> simp
  rw [if_neg h1]
  by_cases h2 : k = "center"
  · subst h2; rw [if_pos rfl, ty_list ty_num]; simp
  rw [if_neg h2]
  by_cases h3 : k ∈ ["glyphs", "name", "sprite"]
  · rw [if_pos h3, ty_str]
    simp only [List.mem_cons, List.not_mem_nil, or_false] at h3
    rcases h3 with rfl | rfl | rfl <;> simp
  rw [if_neg h3]
  by_cases h4 : k = "light"
  · subst h4
    rw [if_pos rfl, ty_struct (P := fun k j => (k = "anchor" → OrNull IsStr j) ∧ (k = "color" → j = .null) ∧
      (k = "intensity" → OrNull IsNum j) ∧ (k = "position" → OrNull (ArrOf (OrNull IsNum)) j)) (by decide +kernel)
      (fun k j hk => by simp only [List.mem_cons, List.not_mem_nil, or_false, not_or] at hk; simp [hk])]
    · simp
    · intro k j
      by_cases a1 : k = "anchor"
      · subst a1; rw [if_pos rfl, ty_str]; simp
      rw [if_neg a1]
      by_cases a2 : k = "color"
      · subst a2; rw [if_pos rfl, ty_iface]; simp
      rw [if_neg a2]
      by_cases a3 : k = "intensity"
      · subst a3; rw [if_pos rfl, ty_num]; simp
      rw [if_neg a3]
      by_cases a4 : k = "position"
      · subst a4; rw [if_pos rfl, ty_list ty_num]; simp
      rw [if_neg a4, ty_skip]
      simp [a1, a2, a3, a4]
  rw [if_neg h4]
  by_cases h5 : k = "metadata"
  · subst h5; rw [if_pos rfl, ty_map ty_any]; simp
  rw [if_neg h5]
  by_cases h6 : k = "sources"
  · subst h6
    rw [if_pos rfl, ty_map (ty_struct (P := fun k j => k ∈ ["type", "url"] → OrNull IsStr j) (by decide +kernel)
      (fun k j hk => by simp only [List.mem_cons, List.not_mem_nil, or_false, not_or] at hk; simp [hk]) _)]
    · simp
    · intro k j
      by_cases a1 : k = "type" ∨ k = "url"
      · rw [if_pos a1, ty_str]
        rcases a1 with rfl | rfl <;> simp
      · rw [if_neg a1, ty_skip]
        simp only [List.mem_cons, List.not_mem_nil, or_false, a1, false_implies]
  rw [if_neg h6]
  by_cases h7 : k = "transition"
  · subst h7
    rw [if_pos rfl, ty_struct (P := fun k j => k ∈ ["delay", "duration"] → OrNull IsInt j) (by decide +kernel)
      (fun k j hk => by simp only [List.mem_cons, List.not_mem_nil, or_false, not_or] at hk; simp [hk])]
    · simp
    · intro k j
      by_cases a1 : k = "delay" ∨ k = "duration"
      · rw [if_pos a1, ty_int]
        rcases a1 with rfl | rfl <;> simp
      · rw [if_neg a1, ty_skip]
        simp only [List.mem_cons, List.not_mem_nil, or_false, a1, false_implies]
  rw [if_neg h7, ty_skip]
  have h3' : ¬ k ∈ ["glyphs", "name", "sprite", "id"] := by
    intro h
    simp only [List.mem_cons, List.not_mem_nil, or_false] at h h3
    tauto
  simp only [h1, h2, h3', h4, h5, h6, h7, false_implies, and_self]

theorem styleField_okd (rnd : ℚ → ℚ) (imp : Nat) (k : String) (j : Json) (s : StyleVal) : Okd (styleField rnd imp k j s) ↔
    (k = "layers" → OrNull (ArrOf (OrNull (FitLayer rnd))) j) ∧
    (k ∈ ["glyphs", "name", "sprite", "id"] → OrNull IsStr j) ∧
    (k ∈ ["bearing", "pitch", "zoom"] → OrNull IsNum j) ∧
    (k = "version" → OrNull IsInt j) ∧
    (k = "center" → OrNull (ArrOf (OrNull IsNum)) j) ∧
    (k = "metadata" → OrNull (ObjOf fun _ j => j.sane = true) j) ∧
    (k = "sources" → OrNull (ObjOf fun _ => OrNull (ObjOf fun k j => k ∈ ["type", "url"] → OrNull IsStr j)) j) ∧
    (k = "transition" → OrNull (ObjOf fun k j => k ∈ ["delay", "duration"] → OrNull IsInt j) j) ∧
    (k = "light" → OrNull (ObjOf fun k j => (k = "anchor" → OrNull IsStr j) ∧ (k = "color" → j = .null) ∧
      (k = "intensity" → OrNull IsNum j) ∧ (k = "position" → OrNull (ArrOf (OrNull IsNum)) j)) j) := by
  unfold styleField
  by_cases h1 : k = "layers"
  · subst h1
    rw [if_pos rfl]
    simp only [forall_const, List.mem_cons, String.reduceEq, List.not_mem_nil, or_false, false_implies, and_true]
    cases j with
    | arr l =>
      simp only [OrNull, ArrOf, reduceCtorEq, false_or, Json.arr.injEq, exists_eq_left']
      have : Okd (decOver (layerElem rnd imp) none s.layers l) ↔ ∀ e ∈ l, e = Json.null ∨ FitLayer rnd e :=
        decOver_okd (P := OrNull (FitLayer rnd)) (layerElem_okd rnd imp) l _
      rw [← this]
      split
      · rename_i e he
        rw [he]
        simp [okd_err]
      · rename_i l' b he
        rw [he]
        simp [okd_mk]
    | null => simp [okd_mk, OrNull]
    | _ => simp [okd_mk, OrNull, ArrOf]
  rw [if_neg h1]
  by_cases h2 : k = "id"
  · subst h2; rw [if_pos rfl]; simp only [okd_mk, strField_ok]; simp
  rw [if_neg h2]
  by_cases h3 : k = "version"
  · subst h3
    rw [if_pos rfl]
    simp only [forall_const, List.mem_cons, String.reduceEq, List.not_mem_nil, or_false, false_implies, and_true, true_and]
    rw [← ty_int]
    split
    · rename_i h; simp [h, okd_mk]
    · rename_i h; simp [h, okd_mk]
  rw [if_neg h3, okd_mk]
  rw [Bool.not_eq_false', styleTy_ok k j h2 h3 h1]
  simp [h1, h3]

end Verif.Style
