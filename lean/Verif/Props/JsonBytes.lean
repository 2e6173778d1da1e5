import Verif.Proof.JsonBytes
import Verif.Model.JsonBytes
import Verif.Spec.JsonBytes
import Verif.Props.DocRead
import Verif.Props.MbtilesFile
import Verif.Props.StyleText

/-!
# C98: JSON as bytes
-/
namespace Verif.JBytes

open Verif.Doc Verif.JText Verif.Utf8 Verif.DocRead Verif.Go

/-! ### UTF-8 -/

/-- **C98.** Reading characters from bytes follows UTF-8, with U+FFFD for every byte that begins no character; writing them is UTF-8;
and what was written is read back, whatever follows. -/
theorem C98_utf8 (p : List Nat) (s : Str) :
    (Utf8.text p = s ↔ Repaired p s) ∧ (Utf8.bytes s = p ↔ WellFormed p s) ∧ Utf8.text (Utf8.bytes s ++ p) = s ++ Utf8.text p :=
  ⟨text_eq_iff, ⟨fun h => h ▸ utf8_bytes s, fun h => (utf8_eq h).symm⟩, text_bytes_append s p⟩

theorem repaired_unique {p : List Nat} {s s' : Str} (h : Repaired p s) (h' : Repaired p s') : s = s' := by
  rw [← text_eq_iff.2 h, text_eq_iff.2 h']

/-- **C98.** Bytes are read by `Unmarshal` exactly when their characters are a JSON text nested at most 10000 deep; by `Decode`, exactly when
they begin with one (a number must have come to an end). -/
theorem C98_reads {α : Type} (c : Codec α) (p : List Nat) :
    (∀ v, readAll c p = some v ↔ ∃ s j, Repaired p s ∧ JsonText s j ∧ depth j ≤ 10000 ∧ c.read j = some v) ∧
    (∀ v, readBody c p = some v → ∃ s j w t r, Repaired p s ∧ Ws w ∧ Text j t ∧ s = w ++ (t ++ r) ∧ depth j ≤ 10000 ∧ c.read j = some v) ∧
    (∀ v s j w t r, Repaired p s → Ws w → Text j t → s = w ++ (t ++ r) → depth j ≤ 10000 → ((∃ n, j = .num n) → Ends r) →
      c.read j = some v → readBody c p = some v) := by
  refine ⟨fun v => ?_, fun v h => ?_, fun v s j w t r hp hw ht hs hd he hv => ?_⟩
  · unfold readAll JText.readAll
    constructor
    · intro h
      cases hu : unmarshal (Utf8.text p) with
      | none => rw [hu] at h; cases h
      | some j =>
        rw [hu] at h
        obtain ⟨h1, h2⟩ := (C95_reads _ _).1 hu
        exact ⟨_, j, repaired_text p, h1, h2, h⟩
    · rintro ⟨s, j, h1, h2, h3, h4⟩
      rw [text_eq_iff.2 h1, (C95_reads s j).2 ⟨h2, h3⟩]
      exact h4
  · unfold readBody JText.readBody at h
    cases hu : decode (Utf8.text p) with
    | none => rw [hu] at h; cases h
    | some j =>
      rw [hu] at h
      obtain ⟨w, t, r, h1, h2, h3, h4⟩ := (C95_first _ _).1 hu
      exact ⟨_, j, w, t, r, repaired_text p, h1, h2, h3, h4, h⟩
  · unfold readBody JText.readBody
    rw [text_eq_iff.2 hp, (C95_first s j).2 w t r hw ht hs hd he]
    exact hv

/-! ### Cut short -/

theorem bytes_prefix : ∀ {t : Str} {p : List Nat}, p <+: bytes t → ∃ t1 q, p = bytes t1 ++ q ∧ ((q = [] ∧ t1 <+: t) ∨
    ∃ c t2, t = t1 ++ c :: t2 ∧ q <+: charBytes c ∧ q ≠ [] ∧ q ≠ charBytes c)
  | [], p, h => by
    have : p = [] := by simpa [bytes] using h
    subst this
    exact ⟨[], [], rfl, .inl ⟨rfl, List.nil_prefix⟩⟩
  | c :: t, p, h => by
    have hb : bytes (c :: t) = charBytes c ++ bytes t := rfl
    rw [hb] at h
    by_cases hl : (charBytes c).length ≤ p.length
    · have h1 : charBytes c <+: p := List.prefix_of_prefix_length_le (List.prefix_append _ _) h hl
      obtain ⟨p', rfl⟩ := h1
      obtain ⟨t1, q, rfl, h2⟩ := bytes_prefix ((List.prefix_append_right_inj _).1 h)
      refine ⟨c :: t1, q, ?_, ?_⟩
      · change _ = charBytes c ++ bytes t1 ++ q
        rw [List.append_assoc]
      · rcases h2 with ⟨rfl, h2⟩ | ⟨d, t2, rfl, h2⟩
        · exact .inl ⟨rfl, by simpa using h2⟩
        · exact .inr ⟨d, t2, rfl, h2⟩
    · have h1 : p <+: charBytes c := List.prefix_of_prefix_length_le h (List.prefix_append _ _) (by omega)
      by_cases hp : p = []
      · subst hp
        exact ⟨[], [], rfl, .inl ⟨rfl, List.nil_prefix⟩⟩
      · refine ⟨[], p, rfl, .inr ⟨c, t, rfl, h1, hp, ?_⟩⟩
        rintro rfl
        exact hl le_rfl

theorem charBytes_high {c : Char} (h : 0x80 ≤ c.toNat) : ∀ b ∈ charBytes c, 0x80 ≤ b := by
  unfold charBytes
  rw [if_neg (by omega)]
  split_ifs <;> intro b hb <;> simp only [List.mem_cons, List.not_mem_nil, or_false] at hb <;> omega

theorem repaired_high {p : List Nat} {s : Str} (h : Repaired p s) : (∀ b ∈ p, 0x80 ≤ b) → ∀ d ∈ s, 0x80 ≤ d.toNat := by
  induction h with
  | nil => intro _ d hd; cases hd
  | @cons c e p s he _ ih =>
    intro hp d hd
    rcases List.mem_cons.1 hd with rfl | hd
    · rcases he with ⟨h1, rfl⟩ | ⟨h1, _⟩ | ⟨h1, _⟩ | ⟨h1, _⟩
      · exact hp _ (by simp)
      · exact h1
      · omega
      · omega
    · exact ih (fun b hb => hp b (by simp [hb])) d hd
  | @bad b p s _ _ ih =>
    intro hp d hd
    rcases List.mem_cons.1 hd with rfl | hd
    · decide
    · exact ih (fun b hb => hp b (by simp [hb])) d hd

theorem text_ne_nil {q : List Nat} (h : q ≠ []) : Utf8.text q ≠ [] := by
  intro h0
  have := repaired_text q
  rw [h0] at this
  cases this
  exact h rfl

theorem last_ascii {j : J} {t : Str} (h : Text j t) (hj : (∃ l, j = .arr l) ∨ ∃ l, j = .obj l) : ∃ s c, t = s ++ [c] ∧ c.toNat < 0x80 := by
  rcases hj with ⟨l, rfl⟩ | ⟨l, rfl⟩
  · cases h with
    | @emptyArr w _ => exact ⟨'[' :: w, ']', rfl, by decide⟩
    | @arr l s _ => exact ⟨'[' :: s, ']', rfl, by decide⟩
  · cases h with
    | @emptyObj w _ => exact ⟨'{' :: w, '}', rfl, by decide⟩
    | @obj l s _ => exact ⟨'{' :: s, '}', rfl, by decide⟩

/-- **C98.** The bytes of an array or object that are cut short anywhere, be it inside a character, are refused. -/
theorem C98_cut_short {α : Type} (c : Codec α) (j : J) (t : Str) (h : Text j t) (hj : (∃ l, j = .arr l) ∨ ∃ l, j = .obj l)
    (b p : List Nat) (hb : WellFormed b t) (hp : p <+: b) (hne : p ≠ b) : readBody c p = none ∧ readAll c p = none := by
  have key : decode (Utf8.text p) = none ∧ unmarshal (Utf8.text p) = none := by
    have hb' := utf8_eq hb
    subst hb'
    obtain ⟨t1, q, rfl, h1⟩ := bytes_prefix hp
    rw [text_bytes_append]
    rcases h1 with ⟨rfl, h1⟩ | ⟨d, t2, rfl, h1, h2, h3⟩
    · have e : Utf8.text [] = [] := rfl
      rw [e, List.append_nil]
      refine C95_cut_short j t t1 h hj h1 ?_
      rintro rfl
      exact hne (by simp)
    · have hd : 0x80 ≤ d.toNat := by
        by_contra hd
        have : charBytes d = [d.toNat] := by unfold charBytes; rw [if_pos (by omega)]
        rw [this] at h1 h3
        rcases List.prefix_cons_iff.1 h1 with rfl | ⟨q', rfl, hq⟩
        · exact h2 rfl
        · rw [List.prefix_nil] at hq
          subst hq
          exact h3 rfl
      have hq : ∀ x ∈ Utf8.text q, 0x80 ≤ x.toNat :=
        repaired_high (repaired_text q) fun x hx => charBytes_high hd x (h1.subset hx)
      have hs : Swap (t1 ++ d :: t2) (t1 ++ (Utf8.text q ++ t2)) :=
        Swap.append (Swap.refl _) (.put hd (text_ne_nil h2) hq (Swap.refl _))
      obtain ⟨j', hj', hk⟩ := text_swap h _ hs
      refine C95_cut_short j' _ _ hj' (hj.imp hk.1 hk.2) ⟨t2, by simp⟩ ?_
      intro he
      have ht2 : t2 = [] := by
        have := congrArg List.length he
        simp only [List.length_append] at this
        exact List.eq_nil_of_length_eq_zero (by omega)
      subst ht2
      obtain ⟨s, e, hse, hea⟩ := last_ascii h hj
      have := List.append_inj_right' hse rfl
      simp only [List.cons.injEq, and_true] at this
      subst this
      omega
  unfold readBody readAll JText.readBody JText.readAll
  rw [key.1, key.2]
  exact ⟨rfl, rfl⟩

/-! ### Documents -/

/-- **C98.** TileJSON, languages, recipes and layer data that are marshalled and decoded again, as bytes, are the same values (`back`: see
C94); a server may send anything after the TileJSON. -/
theorem C98_documents {short : ℚ → Str} (hs : Prints short) :
    (∀ t : TileJSON, t.Valid → ∃ b, marshal (tileJSONC short) t = some b ∧ ∀ rest, tileJSONBody short (b ++ rest) = (t.back, true)) ∧
    (∀ o : Option (List (Option Language)), (∀ l, o = some l → ∀ x, some x ∈ l → x.codepoints.Valid) →
      ∃ b, marshal (sliceC (ptrC languageC)) o = some b ∧ ∀ rest, fontCoverage (b ++ rest) = some o) ∧
    (∀ r : Recipe, r.Valid → ∃ b, marshal recipeC r = some b ∧ readAll recipeC b = some r) ∧
    (∀ d : LayerData, d.Valid → Shallow d → ∃ b, marshal (layerDataC short) d = some b ∧
      readAll (ptrC (layerDataC short)) b = some (some d.back)) := by
  refine ⟨fun t h => ?_, fun o h => ?_, fun r h => ?_, fun d h hd => ?_⟩
  · obtain ⟨x, h1, h2⟩ := C95_tilejson hs t h
    refine ⟨bytes x, by simp [marshal, h1], fun rest => ?_⟩
    unfold tileJSONBody
    rw [text_bytes_append]; exact h2 _
  · obtain ⟨x, h1, h2⟩ := C95_languages o h
    refine ⟨bytes x, by simp [marshal, h1], fun rest => ?_⟩
    unfold fontCoverage
    rw [text_bytes_append]; exact h2 _
  · obtain ⟨x, h1, h2⟩ := C95_recipe r h
    refine ⟨bytes x, by simp [marshal, h1], ?_⟩
    unfold readAll
    rw [text_bytes]; exact h2
  · obtain ⟨x, h1, -, h2⟩ := C95_layer_data hs d h hd
    refine ⟨bytes x, by simp [marshal, h1], ?_⟩
    unfold readAll
    rw [text_bytes]; exact h2

/-- **C98.** A style is parsed from bytes exactly when their characters begin with a JSON value that decodes into a style with a background
(see C97); the bytes of a style cut short anywhere are refused. -/
theorem C98_style (rnd : ℚ → ℚ) (imp : Nat) (A : Style.Arith ℚ) (p : List Nat) (v : Style.StyleVal) (c : Style.ColOut ℚ) :
    (parseStyle rnd imp A p = .ok (v, c) ↔ ∃ s x, Repaired p s ∧ Style.StyleText s x ∧ Style.decodeStyle rnd imp x = .ok v ∧ Style.BackgroundIs A v c) ∧
    (∀ ms t b, Text (.obj ms) t → WellFormed b t → p <+: b → p ≠ b → parseStyle rnd imp A p = .error .err) := by
  constructor
  · unfold parseStyle
    rw [Style.C97_parse]
    constructor
    · rintro ⟨x, h⟩; exact ⟨_, x, repaired_text p, h⟩
    · rintro ⟨s, x, h1, h⟩; rw [text_eq_iff.2 h1]; exact ⟨x, h⟩
  · intro ms t b ht hb hp hne
    have := (C98_cut_short (⟨(), fun _ => false, fun _ => none, fun _ _ => ((), true)⟩ : Codec Unit) (.obj ms) t ht (.inr ⟨ms, rfl⟩) b p hb hp hne).1
    unfold parseStyle Style.parseText
    unfold readBody JText.readBody at this
    cases hd : decode (Utf8.text p) with
    | none => rfl
    | some j =>
      exfalso
      rw [hd] at this
      simp [Codec.read] at this

/-! ### UTF grids -/

theorem decM_eq (short : ℚ → Str) : ∀ (ms : List (Str × J)) (m : List (Str × Dyn)), Dyn.decM m ms = decMap (anyC short) m ms
  | [], m => by simp [Dyn.decM, decMap]
  | (k, j) :: ms, m => by
    simp only [Dyn.decM, decMap]
    rw [decM_eq short ms]
    rfl

theorem decM_lookup (k : Str) (ms : List (Str × J)) : Sorted (Dyn.decM [] ms).1 ∧
    (Dyn.decM [] ms).1.lookup k = (lastFor k ms).map fun j => (Dyn.dec j).1 := by
  rw [decM_eq fun _ => []]
  obtain ⟨h1, h2⟩ := decMap_lookup (anyC fun _ => []) k ms [] .nil
  refine ⟨h1, ?_⟩
  rw [h2]
  cases lastFor k ms <;> rfl

theorem plainM_iff {ok : ℚ → Prop} : ∀ {m : List (Str × Dyn)}, Dyn.PlainM ok m ↔ ∀ e ∈ m, e.2.Plain ok
  | [] => by simp [Dyn.PlainM]
  | (k, d) :: m => by simp [Dyn.PlainM, plainM_iff (m := m)]

theorem mapSet_plain {ok : ℚ → Prop} {m : List (Str × Dyn)} {k : Str} {v : Dyn} (hm : Dyn.PlainM ok m) (hv : v.Plain ok) :
    Dyn.PlainM ok (mapSet k v m) := by
  rw [plainM_iff] at hm ⊢
  intro e he
  rcases mapSet_mem he with h | h
  · rw [h]; exact hv
  · exact hm e h

mutual
theorem dec_plain : ∀ j : J, (Dyn.dec j).1.Plain Float64
  | .null => by simp [Dyn.dec, Dyn.Plain]
  | .bool b => by simp [Dyn.dec, Dyn.Plain]
  | .num l => by
    simp only [Dyn.dec]
    cases h : parse64 l with
    | none => simp [Dyn.Plain]
    | some q =>
      simp only [Dyn.Plain]
      unfold parse64 parseFloat at h
      simp only at h
      split at h
      · rename_i q' hq'
        split at hq'
        · cases hq'
        · simp only [Option.some.injEq] at hq'
          split at h
          · rename_i hf
            simp only [Option.some.injEq] at h
            rw [← h, ← hq']
            rw [← hq'] at hf
            exact F64.float64_rnd64 ((F64.fits_iff _).1 hf)
          · cases h
      · cases h
  | .str s => by simp [Dyn.dec, Dyn.Plain]
  | .arr l => by simp only [Dyn.dec, Dyn.Plain]; exact decL_plain l
  | .obj l => by
    simp only [Dyn.dec, Dyn.Plain]
    exact ⟨(decM_lookup [] l).1, decM_plain l [] (by simp [Dyn.PlainM])⟩
theorem decL_plain : ∀ l : List J, Dyn.PlainL Float64 (Dyn.decL l).1
  | [] => by simp [Dyn.decL, Dyn.PlainL]
  | j :: l => by simp only [Dyn.decL, Dyn.PlainL]; exact ⟨dec_plain j, decL_plain l⟩
theorem decM_plain : ∀ (l : List (Str × J)) (m : List (Str × Dyn)), Dyn.PlainM Float64 m → Dyn.PlainM Float64 (Dyn.decM m l).1
  | [], m, h => by simpa [Dyn.decM] using h
  | (k, j) :: l, m, h => by
    simp only [Dyn.decM]
    exact decM_plain l _ (mapSet_plain h (dec_plain j))
end

theorem lookup_ofList : ∀ (m : List (Str × Dyn)) (k : String),
    (m.map fun e => (String.ofList e.1, e.2)).lookup k = m.lookup k.toList
  | [], k => rfl
  | (a, v) :: m, k => by
    simp only [List.map_cons, List.lookup_cons, lookup_ofList m k]
    by_cases h : k.toList = a
    · subst h; simp
    · have h1 : (k.toList == a) = false := by simpa using h
      have h2 : (k == String.ofList a) = false := by
        rw [beq_eq_false_iff_ne]
        rintro rfl
        exact h (by simp)
      rw [h1, h2]

/-- no name twice -/
def Once {V : Type} (m : List (String × V)) : Prop := (m.map Prod.fst).Nodup

theorem once_set {m : List (String × Dyn)} (h : Once m) (k : String) (v : Dyn) : Once (Mbtiles.setKey m k v) := by
  unfold Once Mbtiles.setKey at *
  rw [List.map_append, List.nodup_append]
  refine ⟨?_, by simp, ?_⟩
  · exact h.sublist ((List.filter_sublist).map _)
  · intro a ha b hb
    simp only [List.map_cons, List.map_nil, List.mem_singleton] at hb
    subst hb
    rintro rfl
    obtain ⟨e, he, rfl⟩ := List.mem_map.1 ha
    have := (List.mem_filter.1 he).2
    simp at this

theorem once_toMap {o : Option J} {m : List (String × Dyn)} (h : toMap o = some (some m)) : Once m := by
  unfold toMap at h
  split at h
  · cases h
  · rename_i ms
    simp only [Option.some.injEq] at h
    subst h
    unfold Once
    rw [List.map_map]
    have hs := (decM_lookup [] ms).1
    have : ((Dyn.decM [] ms).1.map Prod.fst).Nodup := by
      unfold Sorted at hs
      rw [List.Nodup, List.pairwise_map]
      exact hs.imp fun h => by rintro e; rw [e] at h; exact List.lt_irrefl _ h
    have := this.map (f := String.ofList) fun a b h => by simpa using congrArg String.toList h
    rwa [List.map_map] at this
  · cases h

theorem keyData_once (jc : Mbtiles.JCodec Dyn) : ∀ (rows : List Mbtiles.KeyRow) (m kd : List (String × Dyn)), Once m →
    Mbtiles.keyData jc rows m = some kd → Once kd
  | [], m, kd, h, hk => by simp only [Mbtiles.keyData, Option.some.injEq] at hk; subst hk; exact h
  | r :: rows, m, kd, h, hk => by
    simp only [Mbtiles.keyData] at hk
    split at hk
    · cases hk
    · exact keyData_once jc rows _ _ (once_set h _ _) hk

theorem fold_lookup : ∀ (m : List (String × Dyn)) (acc : List (Str × Dyn)), Once m → Sorted acc →
    Sorted (m.foldl (fun acc e => mapSet e.1.toList e.2 acc) acc) ∧
    ∀ k : String, (m.foldl (fun acc e => mapSet e.1.toList e.2 acc) acc).lookup k.toList = (m.lookup k).or (acc.lookup k.toList)
  | [], acc, _, hs => ⟨hs, fun k => by simp⟩
  | (a, v) :: m, acc, ho, hs => by
    unfold Once at ho
    rw [List.map_cons, List.nodup_cons] at ho
    obtain ⟨h1, h2⟩ := fold_lookup m (mapSet a.toList v acc) ho.2 (mapSet_sorted _ _ _ hs)
    refine ⟨h1, fun k => ?_⟩
    rw [List.foldl_cons, h2 k, mapSet_lookup _ _ _ _ hs, List.lookup_cons]
    by_cases h : k = a
    · subst h
      have : m.lookup k = none := by
        rw [List.lookup_eq_none_iff]
        intro e he
        have : ¬ k = e.1 := by intro e'; exact ho.1 (List.mem_map.2 ⟨e, he, e'.symm⟩)
        simpa using this
      simp [this]
    · have h1 : (k == a) = false := by simpa using h
      have h2 : ¬ k.toList = a.toList := fun e => h (String.toList_inj.1 e)
      rw [h1, if_neg h2]

theorem fold_plain : ∀ (m : List (String × Dyn)) (acc : List (Str × Dyn)), (∀ e ∈ m, e.2.Plain Float64) → Dyn.PlainM Float64 acc →
    Dyn.PlainM Float64 (m.foldl (fun acc e => mapSet e.1.toList e.2 acc) acc)
  | [], acc, _, h => h
  | (a, v) :: m, acc, hm, h =>
    fold_plain m _ (fun e he => hm e (by simp [he])) (mapSet_plain h (hm (a, v) (by simp)))

theorem encM_last {short : ℚ → Str} (k : Str) : ∀ {L : List (Str × Dyn)}, Sorted L →
    lastFor k (Dyn.encM short L) = (L.lookup k).map (·.enc short)
  | [], _ => rfl
  | (a, v) :: L, hs => by
    have hs' := List.pairwise_cons.mp hs
    have ih := encM_last (short := short) k hs'.2
    simp only [Dyn.encM, List.lookup_cons]
    unfold lastFor at ih ⊢
    by_cases h : a = k
    · subst h
      rw [List.filter_cons_of_pos (by simp), List.map_cons, beq_self_eq_true]
      have hn : L.lookup a = none := by
        rw [List.lookup_eq_none_iff]
        intro e he
        have := hs'.1 e he
        have : ¬ a = e.1 := by intro h; rw [← h] at this; exact List.lt_irrefl _ this
        simpa using this
      rw [hn, Option.map_none, List.getLast?_eq_none_iff] at ih
      rw [ih]; rfl
    · rw [List.filter_cons_of_neg (by simpa using h), show (k == a) = false by simpa using fun e : k = a => h e.symm]
      exact ih

theorem encM_keys {short : ℚ → Str} : ∀ L : List (Str × Dyn), (Dyn.encM short L).map Prod.fst = L.map Prod.fst
  | [] => rfl
  | (a, v) :: L => by simp only [Dyn.encM, List.map_cons, encM_keys L]

theorem sorted_ext : ∀ {m m' : List (Str × Dyn)}, Sorted m → Sorted m' → (∀ k, m.lookup k = m'.lookup k) → m = m'
  | [], [], _, _, _ => rfl
  | [], (k, v) :: m', _, _, h => by
    have := h k
    rw [List.lookup_cons, beq_self_eq_true] at this
    cases this
  | (k, v) :: m, [], _, _, h => by
    have := h k
    rw [List.lookup_cons, beq_self_eq_true] at this
    cases this
  | (k, v) :: m, (k', v') :: m', hs, hs', h => by
    have p := List.pairwise_cons.mp hs
    have p' := List.pairwise_cons.mp hs'
    have out : ∀ {n : List (Str × Dyn)} {x : Str}, (∀ e ∈ n, x < e.1) → n.lookup x = none := by
      intro n x hn
      rw [List.lookup_eq_none_iff]
      intro e he
      have := hn e he
      have : ¬ x = e.1 := by intro h; rw [← h] at this; exact List.lt_irrefl _ this
      simpa using this
    have hk : k = k' := by
      by_contra hne
      have h1 := h k
      have h2 := h k'
      rw [List.lookup_cons, beq_self_eq_true, List.lookup_cons, show (k == k') = false by simpa using hne] at h1
      rw [List.lookup_cons, List.lookup_cons, beq_self_eq_true, show (k' == k) = false by simpa using fun e : k' = k => hne e.symm] at h2
      by_cases hl : k < k'
      · rw [out (fun e he => List.lt_trans hl (p'.1 e he))] at h1
        cases h1
      by_cases hl' : k' < k
      · rw [out (fun e he => List.lt_trans hl' (p.1 e he))] at h2
        cases h2
      exact hne (List.le_antisymm (List.not_lt.mp hl') (List.not_lt.mp hl))
    subst hk
    have hv : v = v' := by
      have h1 := h k
      rw [List.lookup_cons, beq_self_eq_true, List.lookup_cons, beq_self_eq_true] at h1
      simpa using h1
    subst hv
    rw [sorted_ext p.2 p'.2 fun x => ?_]
    have h1 := h x
    rw [List.lookup_cons, List.lookup_cons] at h1
    by_cases hx : x = k
    · subst hx
      rw [out p.1, out p'.1]
    · rw [show (x == k) = false by simpa using hx] at h1
      exact h1

theorem decL_map : ∀ l : List J, (Dyn.decL l).1 = l.map fun j => (Dyn.dec j).1
  | [] => rfl
  | j :: l => by simp only [Dyn.decL, List.map_cons, decL_map l]

/-- **C98.** What `Alike` means: texts, truth values and null are the same, numbers are those of the same float64 (one beyond the
range of float64 counts as null), lists are alike element by
element, and objects have the same names with alike values, the last of each name counting. -/
theorem C98_alike :
    (∀ s s', Alike (.str s) (.str s') ↔ s = s') ∧ (∀ b b', Alike (.bool b) (.bool b') ↔ b = b') ∧
    (∀ a b x y, NumVal a x → NumVal b y → InRange x → InRange y → (Alike (.num a) (.num b) ↔ F64.rnd64 x = F64.rnd64 y)) ∧
    (∀ x, InRange x → Nearest64 x (F64.rnd64 x)) ∧ (∀ a x, NumVal a x → ¬ InRange x → Alike (.num a) .null) ∧
    (∀ l l', Alike (.arr l) (.arr l') ↔ List.Forall₂ Alike l l') ∧
    (∀ m m', Alike (.obj m) (.obj m') ↔ ∀ k, Option.Rel Alike (lastFor k m) (lastFor k m')) ∧
    (∀ j j', Spelled j → Spelled j' → Any j → Any j' → Alike j j' → match j, j' with
      | .null, .null => True
      | .bool _, .bool _ => True
      | .num _, .num _ => True
      | .str _, .str _ => True
      | .arr _, .arr _ => True
      | .obj _, .obj _ => True
      | _, _ => False) := by
  refine ⟨fun s s' => ?_, fun b b' => ?_, fun a b x y hx hy hx' hy' => ?_, fun x hx => F64.nearest64 hx,
    fun a x hx hx' => ?_, fun l l' => ?_, fun m m' => ?_, fun j j' hj hj' ha ha' h => ?_⟩
  · simp [Alike, Dyn.dec]
  · simp [Alike, Dyn.dec]
  · simp [Alike, Dyn.dec, (num_read64 hx).1 hx', (num_read64 hy).1 hy']
  · simp [Alike, Dyn.dec, (num_read64 hx).2 hx']
  · simp only [Alike, Dyn.dec, Dyn.list.injEq, decL_map]
    induction l generalizing l' with
    | nil => cases l' <;> simp
    | cons a l ih =>
      cases l' with
      | nil => simp
      | cons a' l' => simp only [List.map_cons, List.cons.injEq, List.forall₂_cons, ih, Alike]
  · simp only [Alike, Dyn.dec, Dyn.map.injEq]
    have e : (Dyn.decM [] m).1 = (Dyn.decM [] m').1 ↔ ∀ k, (Dyn.decM [] m).1.lookup k = (Dyn.decM [] m').1.lookup k :=
      ⟨fun h k => by rw [h], fun h => sorted_ext (decM_lookup [] m).1 (decM_lookup [] m').1 h⟩
    rw [e]
    refine forall_congr' fun k => ?_
    rw [(decM_lookup k m).2, (decM_lookup k m').2]
    cases lastFor k m <;> cases lastFor k m' <;> simp [Alike]
  · have num : ∀ {l : Str}, Spelled (.num l) → Any (.num l) → ∃ q, parse64 l = some q := by
      intro l hl ha
      obtain ⟨q, hq, hr⟩ : Finite l := by simpa only [Any] using ha
      exact ⟨_, (num_read64 hq).1 hr⟩
    unfold Alike at h
    cases j <;> cases j' <;> simp only [Dyn.dec] at h <;> first | trivial | cases h | skip
    all_goals
      first
      | (obtain ⟨q, hq⟩ := num hj ha; simp [hq] at h)
      | (obtain ⟨q, hq⟩ := num hj' ha'; simp [hq] at h)

theorem row_value {short : ℚ → Str} (hs : Prints short) (raw : List Nat) :
    (Mbtiles.keyValue (gridCodec short) (some raw)).Plain Float64 ∧
    RowValue raw ((Mbtiles.keyValue (gridCodec short) (some raw)).enc short) := by
  unfold Mbtiles.keyValue RowValue
  simp only [gridCodec, Option.getD_some]
  have key : ∀ j, unmarshal (Utf8.text raw) = some j ↔ JsonText (Utf8.text raw) j ∧ depth j ≤ 10000 := C95_reads _
  have no : (∀ j, unmarshal (Utf8.text raw) = some j → j ≠ .null ∧ ∀ ms, j ≠ .obj ms) →
      (fromMap []).Plain Float64 ∧ ((¬ ∃ s j', Repaired raw s ∧ JsonText s j' ∧ depth j' ≤ 10000 ∧ (j' = .null ∨ ∃ ms, j' = .obj ms)) ∧
        (fromMap []).enc short = .obj []) := by
    intro h
    refine ⟨by simp [fromMap, Dyn.Plain, Dyn.PlainM, Sorted], ?_, by simp [fromMap, Dyn.enc, Dyn.encM]⟩
    rintro ⟨s, j', h1, h2, h3, h4⟩
    rw [← text_eq_iff.2 h1] at h2
    have := h j' ((key j').2 ⟨h2, h3⟩)
    rcases h4 with rfl | ⟨ms, rfl⟩
    · exact this.1 rfl
    · exact this.2 ms rfl
  cases hu : unmarshal (Utf8.text raw) with
  | none =>
    rw [hu] at no
    simp only [toMap]
    exact ⟨(no (by simp)).1, .inr (.inr (no (by simp)).2)⟩
  | some j =>
    obtain ⟨h1, h2⟩ := (key j).1 hu
    rw [hu] at no
    cases j with
    | null =>
      simp only [toMap]
      exact ⟨trivial, .inr (.inl ⟨_, repaired_text raw, h1, rfl⟩)⟩
    | obj ms =>
      simp only [toMap]
      have e : fromMap ((Dyn.decM [] ms).1.map fun e => (String.ofList e.1, e.2)) = (Dyn.dec (.obj ms)).1 := by
        unfold fromMap
        simp only [Dyn.dec, Dyn.map.injEq]
        have ho : Once ((Dyn.decM [] ms).1.map fun e => (String.ofList e.1, e.2)) := once_toMap (o := some (.obj ms)) rfl
        obtain ⟨k1, k2⟩ := fold_lookup _ [] ho .nil
        refine sorted_ext k1 (decM_lookup [] ms).1 fun k => ?_
        have := k2 (String.ofList k)
        rw [lookup_ofList] at this
        simpa using this
      rw [e]
      refine ⟨dec_plain _, .inl ⟨_, ms, repaired_text raw, h1, h2, ?_⟩⟩
      unfold Alike
      rw [dyn_back hs.back _ (dec_plain (.obj ms))]
    | _ =>
      simp only [toMap]
      exact ⟨(no (by simp)).1, .inr (.inr (no (by simp)).2)⟩

theorem lookup_mem' {V : Type} {m : List (String × V)} (ho : Once m) {e : String × V} (he : e ∈ m) : m.lookup e.1 = some e.2 := by
  induction m with
  | nil => cases he
  | cons a m ih =>
    unfold Once at ho
    rw [List.map_cons, List.nodup_cons] at ho
    rw [List.lookup_cons]
    rcases List.mem_cons.1 he with rfl | he
    · simp
    · have : ¬ e.1 = a.1 := fun h => ho.1 (List.mem_map.2 ⟨e, he, h⟩)
      rw [show (e.1 == a.1) = false by simpa using this]
      exact ih ho.2 he

/-- **C98.** `ReadGrid` on a grid whose bytes, decompressed, begin with a JSON object: the answer, compressed the same way, is the UTF-8 of one JSON
object with each name once; its members are alike those of the stored grid except `data`, which is an object with, for each key name, what
its (last) row says. -/
theorem C98_grid {short : ℚ → Str} (hs : Prints short) (cp : Mbtiles.Comp) (hc : cp.Law) (db : Mbtiles.DB) (f : Mbtiles.File) (z x y : Nat)
    (data : Mbtiles.Blob) (hx : x < 2 ^ 63) (hy : y < 2 ^ 63) (hg : db.hasGrid = true) (g : Mbtiles.GridRow)
    (hf : f.grids.find? (fun r => r.z == z && r.x == x && r.y == y) = some g)
    (hk : f.keyRows z x y ≠ []) (hn : ∀ r ∈ f.keyRows z x y, r.name ≠ none)
    (raw : List Nat) (hu : cp.unzip (db.comp == Mbtiles.ZLIB) (g.grid.getD []) = some raw)
    (w t rest : Str) (ms : List (Str × J)) (hr : Repaired raw (w ++ (t ++ rest))) (hw : Ws w) (ht : Text (.obj ms) t)
    (hd : depth (.obj ms) ≤ 10000) :
    ∃ b out s' ms' kd, Mbtiles.readGrid (gridCodec short) cp db f z x y true data = (.ok, some b) ∧
      cp.unzip (db.comp == Mbtiles.ZLIB) b = some out ∧ WellFormed out s' ∧ JsonText s' (.obj ms') ∧ (ms'.map Prod.fst).Nodup ∧
      (∀ k, k ≠ "data".toList → Option.Rel Alike (lastFor k ms') (lastFor k ms)) ∧
      lastFor "data".toList ms' = some (.obj kd) ∧ (kd.map Prod.fst).Nodup ∧
      ∀ name : String, match (f.keyRows z x y).reverse.find? (fun r => r.name = some name) with
        | none => lastFor name.toList kd = none
        | some r => ∃ j, lastFor name.toList kd = some j ∧ RowValue (r.json.getD []) j := by
  have hsq : (Mbtiles.sqlUint x && Mbtiles.sqlUint y && true) = true := by
    norm_num at hx hy; simp [Mbtiles.sqlUint, hx, hy]
  obtain ⟨kd, h1, h2, -, h3⟩ := Mbtiles.keyData_spec (gridCodec short) (f.keyRows z x y) [] hn
  have hlen : kd.length ≠ 0 := by simpa using h2 (.inl hk)
  have hdec : (gridCodec short).first raw = some (some ((Dyn.decM [] ms).1.map fun e => (String.ofList e.1, e.2))) := by
    simp only [gridCodec]
    rw [text_eq_iff.2 hr, (C95_first _ _).2 w t rest hw ht rfl hd (by rintro ⟨n, h⟩; cases h)]
    rfl
  have hkd : Once kd := keyData_once _ _ _ _ (by simp [Once]) h1
  -- rows
  have hrow : ∀ r : Mbtiles.KeyRow, (Mbtiles.keyValue (gridCodec short) r.json).Plain Float64 ∧
      RowValue (r.json.getD []) ((Mbtiles.keyValue (gridCodec short) r.json).enc short) := by
    intro r
    have := row_value hs (r.json.getD [])
    have e : Mbtiles.keyValue (gridCodec short) (some (r.json.getD [])) = Mbtiles.keyValue (gridCodec short) r.json := by
      unfold Mbtiles.keyValue
      rw [Option.getD_some]
    rw [e] at this
    exact this
  have hkp : ∀ e ∈ kd, e.2.Plain Float64 := by
    intro e he
    have := h3 e.1
    rw [lookup_mem' hkd he] at this
    cases hfd : (f.keyRows z x y).reverse.find? (fun r => decide (r.name = some e.1)) with
    | none => rw [hfd] at this; simp at this
    | some r =>
      rw [hfd] at this
      simp only [Option.map_some, Option.some_or, Option.some.injEq] at this
      rw [this]
      exact (hrow r).1
  -- the map that is written
  obtain ⟨m, hm⟩ : ∃ m, m = (Dyn.decM [] ms).1.map fun e => (String.ofList e.1, e.2) := ⟨_, rfl⟩
  have hmo : Once m := once_toMap (o := some (.obj ms)) (by rw [hm]; rfl)
  have hmp : ∀ e ∈ m, e.2.Plain Float64 := by
    intro e he
    rw [hm] at he
    obtain ⟨e', he', rfl⟩ := List.mem_map.1 he
    exact plainM_iff.1 (decM_plain ms [] (by simp [Dyn.PlainM])) e' he'
  rw [← hm] at hdec
  obtain ⟨M, hM⟩ : ∃ M, M = Mbtiles.setKey m "data" (fromMap kd) := ⟨_, rfl⟩
  have hMo : Once M := by rw [hM]; exact once_set hmo _ _
  have hfk : (fromMap kd).Plain Float64 := by
    unfold fromMap
    simp only [Dyn.Plain]
    exact ⟨(fold_lookup kd [] hkd .nil).1, fold_plain kd [] hkp (by simp [Dyn.PlainM])⟩
  have hMp : ∀ e ∈ M, e.2.Plain Float64 := by
    intro e he
    rw [hM] at he
    unfold Mbtiles.setKey at he
    rcases List.mem_append.1 he with he | he
    · exact hmp e (List.mem_of_mem_filter he)
    · rw [List.mem_singleton] at he
      subst he
      exact hfk
  obtain ⟨s1, s2⟩ := fold_lookup M [] hMo .nil
  obtain ⟨L, hL⟩ : ∃ L, L = M.foldl (fun acc e => mapSet e.1.toList e.2 acc) [] := ⟨_, rfl⟩
  rw [← hL] at s1 s2
  have hLp : Dyn.PlainM Float64 L := by rw [hL]; exact fold_plain M [] hMp (by simp [Dyn.PlainM])
  have hLM : fromMap M = .map L := by rw [hL]; rfl
  obtain ⟨q1, q2⟩ := fold_lookup kd [] hkd .nil
  obtain ⟨K, hK⟩ : ∃ K, K = kd.foldl (fun acc e => mapSet e.1.toList e.2 acc) [] := ⟨_, rfl⟩
  rw [← hK] at q1 q2
  have nodup : ∀ {L : List (Str × Dyn)}, Sorted L → (L.map Prod.fst).Nodup := by
    intro L hs
    unfold Sorted at hs
    rw [List.Nodup, List.pairwise_map]
    exact hs.imp fun h => by rintro e; rw [e] at h; exact List.lt_irrefl _ h
  have hsp : Spelled ((fromMap M).enc short) := by
    have : (fromMap M).Plain Float64 := by rw [hLM]; exact ⟨s1, hLp⟩
    exact (neat_any hs.number this (le_refl _) _ rfl).1
  refine ⟨_, _, encode ((fromMap M).enc short), Dyn.encM short L, Dyn.encM short K, ?_, hc _ (bytes (encode ((fromMap M).enc short))), utf8_bytes _,
    ?_, ?_, ?_, ?_, ?_, ?_⟩
  · unfold Mbtiles.readGrid
    unfold Mbtiles.File.keyRows at h1
    rw [hg, hsq, hf]
    simp only [Bool.not_true, Bool.false_eq_true, if_false, h1, if_neg hlen, hu, hdec, hM]
    rfl
  · have := (C95_writes _ hsp).2.2
    rw [hLM] at this ⊢
    simpa only [Dyn.enc] using this
  · rw [encM_keys]; exact nodup s1
  · intro k hk
    rw [encM_last k s1]
    have e1 := s2 (String.ofList k)
    rw [hM, Mbtiles.lookup_setKey, if_neg (by
      intro h
      have := congrArg String.toList h
      rw [String.toList_ofList] at this
      exact hk this), hm, lookup_ofList] at e1
    simp only [String.toList_ofList, List.lookup_nil, Option.or_none] at e1
    rw [e1, (decM_lookup k ms).2]
    cases lastFor k ms with
    | none => exact .none
    | some j =>
      refine .some ?_
      unfold Alike
      rw [dyn_back hs.back _ (dec_plain j)]
  · rw [encM_last _ s1]
    have e1 := s2 "data"
    rw [hM, Mbtiles.lookup_setKey, if_pos rfl] at e1
    simp only [Option.some_or] at e1
    rw [e1, hK]
    rfl
  · rw [encM_keys]; exact nodup q1
  · intro name
    have e1 := q2 name
    rw [h3] at e1
    simp only [List.lookup_nil, Option.or_none] at e1
    rw [encM_last _ q1, e1]
    cases hfd : (f.keyRows z x y).reverse.find? (fun r => decide (r.name = some name)) with
    | none => rfl
    | some r => exact ⟨_, rfl, (hrow r).2⟩

/-! Bytes with an ill-formed sequence, and a grid with an accented letter and two rows. -/

example : Utf8.text [0x22, 0xC3, 0xA9, 0xE2, 0x82, 0x22, 0xF0, 0x9F, 0x98, 0x80, 0xC0, 0x80] = "\"é\uFFFD\uFFFD\"😀\uFFFD\uFFFD".toList ∧
    Utf8.bytes "é€😀a".toList = [0xC3, 0xA9, 0xE2, 0x82, 0xAC, 0xF0, 0x9F, 0x98, 0x80, 97] := by
  decide +kernel

/-- a file with one grid and two key rows, the second of which is no JSON object -/
def demoFile : Mbtiles.File where
  grids := [⟨1, 0, 1, some (0x1f :: Utf8.bytes " {\"é\":[1.0,true],\"data\":null,\"é\":2e0} x".toList)⟩]
  keys := [⟨1, 0, 1, some "b", some (Utf8.bytes "{\"n\":1}".toList)⟩, ⟨1, 0, 1, some "a", some [0x7B]⟩, ⟨0, 0, 0, some "a", none⟩]

example : Mbtiles.readGrid (gridCodec fun q => itoa q.num) Mbtiles.demoComp ⟨0, true, 0⟩ demoFile 1 0 1 true none =
    (.ok, some (0x1f :: Utf8.bytes "{\"data\":{\"a\":{},\"b\":{\"n\":1}},\"é\":2}\n".toList)) := by
  decide +kernel

/-- The grid meets the hypotheses of C98_grid. -/
example : ∃ ms, Text (.obj ms) "{\"é\":[1.0,true],\"data\":null,\"é\":2e0}".toList ∧ depth (.obj ms) ≤ 10000 ∧
    WellFormed (Utf8.bytes " {\"é\":[1.0,true],\"data\":null,\"é\":2e0} x".toList)
      (" ".toList ++ ("{\"é\":[1.0,true],\"data\":null,\"é\":2e0}".toList ++ " x".toList)) ∧
    demoFile.keyRows 1 0 1 ≠ [] ∧ ∀ r ∈ demoFile.keyRows 1 0 1, r.name ≠ none := by
  have n1 : Number "1.0".toList := ⟨[], ['1'], ['.', '0'], [], .inl rfl, .inr ⟨⟨by simp, by decide⟩, by decide⟩,
    .inr ⟨['0'], ⟨by simp, by decide⟩, rfl⟩, .inl rfl, rfl⟩
  have n2 : Number "2e0".toList := ⟨[], ['2'], [], ['e', '0'], .inl rfl, .inr ⟨⟨by simp, by decide⟩, by decide⟩, .inl rfl,
    .inr ⟨'e', [], ['0'], .inl rfl, .inl rfl, ⟨by simp, by decide⟩, rfl⟩, rfl⟩
  have e : Chars ['é'] ['é'] := .plain (by decide) (by decide) (by decide) .nil
  have d : Chars "data".toList "data".toList := .plain (by decide) (by decide) (by decide) <| .plain (by decide) (by decide) (by decide) <|
    .plain (by decide) (by decide) (by decide) <| .plain (by decide) (by decide) (by decide) .nil
  have w0 : Ws [] := by simp [Ws]
  have a : Text (.arr [.num "1.0".toList, .bool true]) "[1.0,true]".toList :=
    .arr (.cons (s := "1.0".toList) (w' := []) (r := "true".toList) w0 (.num n1) w0 (.one (s := "true".toList) (w' := []) w0 .true w0))
  refine ⟨[(['é'], .arr [.num "1.0".toList, .bool true]), ("data".toList, .null), (['é'], .num "2e0".toList)],
    .obj (.cons (w := []) (n := ['é']) (w1 := []) (w2 := []) (s := "[1.0,true]".toList) (w3 := []) w0 e w0 w0 a w0
      (.cons (w := []) (n := "data".toList) (w1 := []) (w2 := []) (s := "null".toList) (w3 := []) w0 d w0 w0 .null w0
        (.one (w := []) (n := ['é']) (w1 := []) (w2 := []) (s := "2e0".toList) (w3 := []) w0 e w0 w0 (.num n2) w0))),
    by decide, utf8_bytes _, by decide, by decide⟩

end Verif.JBytes
