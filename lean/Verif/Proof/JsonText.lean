import Verif.Spec.JsonText

/-! # The reader of JSON texts follows the grammar -/
namespace Verif.JText

open Verif.Doc

/-! ### White space -/

theorem isWs_iff (c : Char) : isWs c = true ↔ (c = ' ' ∨ c = '\t' ∨ c = '\n' ∨ c = '\r') := by
  unfold isWs
  simp only [Bool.or_eq_true, beq_iff_eq]
  tauto

theorem skipWs_append {w : Str} (hw : Ws w) (s : Str) : skipWs (w ++ s) = skipWs s := by
  induction w with
  | nil => rfl
  | cons c w ih =>
    have h1 := (isWs_iff c).mpr (hw c (by simp))
    simp only [List.cons_append, skipWs, h1, if_true]
    exact ih (fun x hx => hw x (by simp [hx]))

theorem skipWs_spec (s : Str) : ∃ w, Ws w ∧ s = w ++ skipWs s := by
  induction s with
  | nil => exact ⟨[], (by intro c hc; cases hc), rfl⟩
  | cons c s ih =>
    by_cases h : isWs c = true
    · obtain ⟨w, h1, h2⟩ := ih
      refine ⟨c :: w, ?_, ?_⟩
      · intro x hx
        rcases List.mem_cons.mp hx with rfl | hx
        · exact (isWs_iff _).mp h
        · exact h1 x hx
      · simp only [skipWs, h, if_true, List.cons_append]
        rw [← h2]
    · exact ⟨[], (by intro c hc; cases hc), by simp [skipWs, h]⟩

theorem skipWs_stop {c : Char} {s : Str} (h : isWs c = false) : skipWs (c :: s) = c :: s := by
  simp [skipWs, h]

theorem skipWs_ws {w : Str} (hw : Ws w) : skipWs w = [] := by
  have := skipWs_append hw []
  rwa [List.append_nil] at this

theorem ws_of_skipWs {s : Str} (h : skipWs s = []) : Ws s := by
  obtain ⟨w, h1, h2⟩ := skipWs_spec s
  rw [h, List.append_nil] at h2
  rw [h2]; exact h1

theorem ws_nil : Ws [] := by intro c hc; cases hc

/-! ### Numbers -/

theorem isDigit_iff (c : Char) : c.isDigit = true ↔ ('0' ≤ c ∧ c ≤ '9') := by
  simp [Char.isDigit, Char.le_def]

/-- The text does not go on with a digit. -/
def NoDigit (r : Str) : Prop := ∀ c s, r = c :: s → c.isDigit = false

theorem digits_spec (s : Str) : s = (digits s).1 ++ (digits s).2 ∧ (∀ c ∈ (digits s).1, c.isDigit = true) := by
  induction s with
  | nil => exact ⟨rfl, by intro c hc; cases hc⟩
  | cons c s ih =>
    by_cases h : c.isDigit = true
    · simp only [digits, h, if_true, List.cons_append]
      refine ⟨by rw [← ih.1], ?_⟩
      intro x hx
      rcases List.mem_cons.mp hx with rfl | hx
      · exact h
      · exact ih.2 x hx
    · simp only [digits, h]
      exact ⟨rfl, by intro c hc; cases hc⟩

theorem digits_append {d r : Str} (hd : ∀ c ∈ d, c.isDigit = true) (hr : NoDigit r) : digits (d ++ r) = (d, r) := by
  induction d with
  | nil =>
    cases r with
    | nil => rfl
    | cons c s => simp [digits, hr c s rfl]
  | cons c d ih =>
    have h1 := hd c (by simp)
    have h2 := ih (fun x hx => hd x (by simp [hx]))
    simp only [List.cons_append, digits, h1, if_true, h2]

theorem digits_iff {d : Str} : Digits d ↔ d ≠ [] ∧ ∀ c ∈ d, c.isDigit = true := by
  unfold Digits
  simp only [isDigit_iff]

theorem scanInt_sound {s a r : Str} (h : scanInt s = some (a, r)) : s = a ++ r ∧ IntPart a := by
  cases s with
  | nil => simp [scanInt] at h
  | cons c s =>
    simp only [scanInt] at h
    by_cases h0 : c = '0'
    · rw [if_pos h0] at h
      simp only [Option.some.injEq, Prod.mk.injEq] at h
      obtain ⟨rfl, rfl⟩ := h
      exact ⟨by rw [h0]; rfl, Or.inl rfl⟩
    · rw [if_neg h0] at h
      by_cases h1 : c.isDigit = true
      · rw [if_pos h1] at h
        simp only [Option.some.injEq, Prod.mk.injEq] at h
        obtain ⟨rfl, rfl⟩ := h
        obtain ⟨h2, h3⟩ := digits_spec s
        refine ⟨by rw [List.cons_append, ← h2], Or.inr ⟨digits_iff.mpr ⟨by simp, ?_⟩, by simpa using h0⟩⟩
        intro x hx
        rcases List.mem_cons.mp hx with rfl | hx
        · exact h1
        · exact h3 x hx
      · rw [if_neg h1] at h; cases h

theorem scanInt_complete {a r : Str} (ha : IntPart a) (hr : NoDigit r) : scanInt (a ++ r) = some (a, r) := by
  rcases ha with rfl | ⟨h1, h2⟩
  · rfl
  · obtain ⟨h3, h4⟩ := digits_iff.mp h1
    cases a with
    | nil => exact absurd rfl h3
    | cons c d =>
      have h0 : c ≠ '0' := by simpa using h2
      have h5 := digits_append (fun x hx => h4 x (by simp [hx])) hr (d := d)
      simp only [List.cons_append, scanInt, if_neg h0, if_pos (h4 c (by simp)), h5]

theorem scanFrac_sound {s a r : Str} (h : scanFrac s = some (a, r)) : s = a ++ r ∧ FracPart a := by
  cases s with
  | nil =>
    simp only [scanFrac, Option.some.injEq, Prod.mk.injEq] at h
    obtain ⟨rfl, rfl⟩ := h
    exact ⟨rfl, Or.inl rfl⟩
  | cons c s =>
    simp only [scanFrac] at h
    by_cases h0 : c = '.'
    · rw [if_pos h0] at h
      obtain ⟨h2, h3⟩ := digits_spec s
      cases hd : (digits s).1 with
      | nil => rw [hd] at h; cases h
      | cons x d =>
        rw [hd] at h h2 h3
        simp only [Option.some.injEq, Prod.mk.injEq] at h
        obtain ⟨rfl, rfl⟩ := h
        exact ⟨by rw [h0, List.cons_append, ← h2], Or.inr ⟨x :: d, digits_iff.mpr ⟨by simp, h3⟩, rfl⟩⟩
    · rw [if_neg h0] at h
      simp only [Option.some.injEq, Prod.mk.injEq] at h
      obtain ⟨rfl, rfl⟩ := h
      exact ⟨rfl, Or.inl rfl⟩

theorem scanFrac_complete {a r : Str} (ha : FracPart a) (hr : NoDigit r) (hr' : ∀ s, r ≠ '.' :: s) :
    scanFrac (a ++ r) = some (a, r) := by
  rcases ha with rfl | ⟨d, h1, rfl⟩
  · cases r with
    | nil => rfl
    | cons c s =>
      have : c ≠ '.' := fun h => hr' s (by rw [h])
      simp [scanFrac, this]
  · obtain ⟨h3, h4⟩ := digits_iff.mp h1
    simp only [List.cons_append, scanFrac, if_true, digits_append h4 hr]

theorem scanSign_spec (s : Str) : s = (scanSign s).1 ++ (scanSign s).2 ∧
    ((scanSign s).1 = [] ∨ (scanSign s).1 = ['+'] ∨ (scanSign s).1 = ['-']) := by
  cases s with
  | nil => exact ⟨rfl, Or.inl rfl⟩
  | cons c s =>
    simp only [scanSign]
    by_cases h : c = '+' ∨ c = '-'
    · simp only [if_pos h]
      refine ⟨rfl, Or.inr ?_⟩
      rcases h with rfl | rfl
      · exact Or.inl rfl
      · exact Or.inr rfl
    · simp only [if_neg h]
      exact ⟨rfl, Or.inl trivial⟩

theorem scanSign_complete {g s : Str} (hg : g = [] ∨ g = ['+'] ∨ g = ['-']) (hs : ∃ c t, s = c :: t ∧ c.isDigit = true) :
    scanSign (g ++ s) = (g, s) := by
  rcases hg with rfl | rfl | rfl
  · obtain ⟨c, t, rfl, h⟩ := hs
    have h1 : ¬ (c = '+' ∨ c = '-') := by
      rintro (rfl | rfl) <;> simp at h
    simp [scanSign, h1]
  · rfl
  · rfl

theorem scanExp_sound {s a r : Str} (h : scanExp s = some (a, r)) : s = a ++ r ∧ ExpPart a := by
  cases s with
  | nil =>
    simp only [scanExp, Option.some.injEq, Prod.mk.injEq] at h
    obtain ⟨rfl, rfl⟩ := h
    exact ⟨rfl, Or.inl rfl⟩
  | cons c s =>
    simp only [scanExp] at h
    by_cases h0 : c = 'e' ∨ c = 'E'
    · rw [if_pos h0] at h
      obtain ⟨h5, h6⟩ := scanSign_spec s
      obtain ⟨h2, h3⟩ := digits_spec (scanSign s).2
      cases hd : (digits (scanSign s).2).1 with
      | nil => rw [hd] at h; cases h
      | cons x d =>
        rw [hd] at h h2 h3
        simp only [Option.some.injEq, Prod.mk.injEq] at h
        obtain ⟨rfl, rfl⟩ := h
        refine ⟨?_, Or.inr ⟨c, _, x :: d, h0, h6, digits_iff.mpr ⟨by simp, h3⟩, rfl⟩⟩
        conv_lhs => rw [h5, h2]
        simp
    · rw [if_neg h0] at h
      simp only [Option.some.injEq, Prod.mk.injEq] at h
      obtain ⟨rfl, rfl⟩ := h
      exact ⟨rfl, Or.inl rfl⟩

theorem scanExp_complete {a r : Str} (ha : ExpPart a) (hr : Ends r) : scanExp (a ++ r) = some (a, r) := by
  have hr' : NoDigit r := fun c s h => by
    have := (hr c s h).1
    rw [← isDigit_iff] at this
    simpa using this
  rcases ha with rfl | ⟨e, g, d, he, hg, hd, rfl⟩
  · cases r with
    | nil => rfl
    | cons c s =>
      have h := hr c s rfl
      have : ¬ (c = 'e' ∨ c = 'E') := by tauto
      simp [scanExp, this]
  · obtain ⟨h3, h4⟩ := digits_iff.mp hd
    cases d with
    | nil => exact absurd rfl h3
    | cons x d =>
      have h5 : scanSign (g ++ (x :: d ++ r)) = (g, x :: d ++ r) :=
        scanSign_complete hg ⟨x, d ++ r, rfl, h4 x (by simp)⟩
      have h6 : (e :: (g ++ (x :: d))) ++ r = e :: (g ++ (x :: d ++ r)) := by simp
      rw [h6]
      simp only [scanExp, if_pos he, h5]
      rw [digits_append h4 hr']

theorem scanMinus_spec (s : Str) : s = (scanMinus s).1 ++ (scanMinus s).2 ∧
    ((scanMinus s).1 = [] ∨ (scanMinus s).1 = ['-']) := by
  cases s with
  | nil => exact ⟨rfl, Or.inl rfl⟩
  | cons c s =>
    simp only [scanMinus]
    by_cases h : c = '-'
    · simp only [if_pos h]
      exact ⟨by rw [h]; rfl, Or.inr trivial⟩
    · simp only [if_neg h]
      exact ⟨rfl, Or.inl trivial⟩

theorem intPart_head {i : Str} (h : IntPart i) : ∃ c t, i = c :: t ∧ c.isDigit = true := by
  rcases h with rfl | ⟨h1, _⟩
  · exact ⟨'0', [], rfl, rfl⟩
  · obtain ⟨h3, h4⟩ := digits_iff.mp h1
    cases i with
    | nil => exact absurd rfl h3
    | cons c t => exact ⟨c, t, rfl, h4 c (by simp)⟩

theorem scanMinus_complete {m i s : Str} (hm : m = [] ∨ m = ['-']) (hi : IntPart i) :
    scanMinus (m ++ (i ++ s)) = (m, i ++ s) := by
  rcases hm with rfl | rfl
  · obtain ⟨c, t, rfl, h⟩ := intPart_head hi
    have h1 : c ≠ '-' := by rintro rfl; simp at h
    simp [scanMinus, h1]
  · rfl

theorem scanNum_sound {s a r : Str} (h : scanNum s = some (a, r)) : s = a ++ r ∧ Number a := by
  unfold scanNum at h
  obtain ⟨h1, h2⟩ := scanMinus_spec s
  cases hi : scanInt (scanMinus s).2 with
  | none => rw [hi] at h; cases h
  | some i =>
    rw [hi] at h
    obtain ⟨h3, h4⟩ := scanInt_sound (a := i.1) (r := i.2) hi
    cases hf : scanFrac i.2 with
    | none => simp only [hf] at h; cases h
    | some f =>
      simp only [hf] at h
      obtain ⟨h5, h6⟩ := scanFrac_sound (a := f.1) (r := f.2) hf
      cases he : scanExp f.2 with
      | none => simp only [he] at h; cases h
      | some e =>
        simp only [he, Option.some.injEq, Prod.mk.injEq] at h
        obtain ⟨h7, h8⟩ := scanExp_sound (a := e.1) (r := e.2) he
        obtain ⟨rfl, rfl⟩ := h
        refine ⟨?_, _, _, _, _, h2, h4, h6, h8, rfl⟩
        conv_lhs => rw [h1, h3, h5, h7]
        simp

theorem ends_noDigit {r : Str} (hr : Ends r) : NoDigit r := fun c s h => by
  have := (hr c s h).1
  rw [← isDigit_iff] at this
  simpa using this

theorem exp_noDigit {e r : Str} (he : ExpPart e) (hr : Ends r) : NoDigit (e ++ r) ∧ ∀ s, e ++ r ≠ '.' :: s := by
  rcases he with rfl | ⟨x, g, d, hx, -, -, rfl⟩
  · exact ⟨ends_noDigit hr, fun s h => (hr _ _ h).2.1 rfl⟩
  · constructor
    · intro c s h
      simp only [List.cons_append, List.cons.injEq] at h
      rw [← h.1]
      rcases hx with rfl | rfl <;> rfl
    · intro s h
      simp only [List.cons_append, List.cons.injEq] at h
      rcases hx with rfl | rfl <;> exact absurd h.1 (by decide)

theorem frac_noDigit {f s : Str} (hf : FracPart f) (hs : NoDigit s) : NoDigit (f ++ s) := by
  rcases hf with rfl | ⟨d, -, rfl⟩
  · exact hs
  · intro c t h
    simp only [List.cons_append, List.cons.injEq] at h
    rw [← h.1]; rfl

theorem scanNum_complete {a r : Str} (ha : Number a) (hr : Ends r) : scanNum (a ++ r) = some (a, r) := by
  obtain ⟨m, i, f, e, hm, hi, hf, he, rfl⟩ := ha
  have e1 : (m ++ (i ++ (f ++ e))) ++ r = m ++ (i ++ (f ++ (e ++ r))) := by simp
  obtain ⟨h1, h2⟩ := exp_noDigit he hr
  rw [e1]
  unfold scanNum
  rw [scanMinus_complete hm hi]
  simp only
  rw [scanInt_complete hi (frac_noDigit hf h1)]
  simp only
  rw [scanFrac_complete hf h1 h2]
  simp only
  rw [scanExp_complete he hr]

/-! ### Strings -/

theorem hexVal_iff (c : Char) (n : Nat) : hexVal c = some n ↔ Hex4.Hex c n := by
  unfold hexVal Hex4.Hex
  have e0 : '0'.toNat = 48 := rfl
  have ea : 'a'.toNat = 97 := rfl
  have eA : 'A'.toNat = 65 := rfl
  have hl : ∀ a b : Char, a ≤ b ↔ a.toNat ≤ b.toNat := fun a b => Iff.rfl
  have e9 : '9'.toNat = 57 := rfl
  have ef : 'f'.toNat = 102 := rfl
  have eF : 'F'.toNat = 70 := rfl
  simp only [hl, e0, ea, eA, e9, ef, eF]
  generalize c.toNat = k
  split
  · simp only [Option.some.injEq]; omega
  · split
    · simp only [Option.some.injEq]; omega
    · split
      · simp only [Option.some.injEq]; omega
      · simp only [reduceCtorEq, false_iff]; omega

theorem hex4_iff (a b c d : Char) (n : Nat) : hex4 a b c d = some n ↔ Hex4 [a, b, c, d] n := by
  unfold hex4 Hex4
  constructor
  · intro h
    cases ha : hexVal a with
    | none => simp [ha] at h
    | some p =>
      cases hb : hexVal b with
      | none => simp [ha, hb] at h
      | some q =>
        cases hc : hexVal c with
        | none => simp [ha, hb, hc] at h
        | some r =>
          cases hd : hexVal d with
          | none => simp [ha, hb, hc, hd] at h
          | some t =>
            simp only [ha, hb, hc, hd, Option.some.injEq] at h
            exact ⟨a, b, c, d, p, q, r, t, rfl, (hexVal_iff _ _).mp ha, (hexVal_iff _ _).mp hb, (hexVal_iff _ _).mp hc,
              (hexVal_iff _ _).mp hd, by omega⟩
  · rintro ⟨a', b', c', d', p, q, r, t, h, ha, hb, hc, hd, rfl⟩
    simp only [List.cons.injEq, and_true] at h
    obtain ⟨rfl, rfl, rfl, rfl⟩ := h
    rw [(hexVal_iff _ _).mpr ha, (hexVal_iff _ _).mpr hb, (hexVal_iff _ _).mpr hc, (hexVal_iff _ _).mpr hd]
    simp only [Option.some.injEq]
    omega

theorem Hex4.shape {h : Str} {n : Nat} (hh : Hex4 h n) : ∃ a b c d, h = [a, b, c, d] ∧ hex4 a b c d = some n := by
  obtain ⟨a, b, c, d, p, q, r, t, rfl, ha, hb, hc, hd, rfl⟩ := hh
  exact ⟨a, b, c, d, rfl, (hex4_iff _ _ _ _ _).mpr ⟨a, b, c, d, p, q, r, t, rfl, ha, hb, hc, hd, rfl⟩⟩

theorem escVal_iff (e c : Char) : escVal e = some c ↔ Escape e c := by
  unfold escVal Escape
  have e8 : Char.ofNat 8 = '\x08' := rfl
  have e12 : Char.ofNat 12 = '\x0c' := rfl
  simp only [List.mem_cons, Prod.mk.injEq, List.not_mem_nil, or_false]
  constructor
  · intro h
    split at h
    · simp_all; exact h.symm
    split at h
    · simp_all; exact h.symm
    split at h
    · simp_all; exact h.symm
    split at h
    · simp_all; exact h.symm
    split at h
    · simp_all; exact h.symm
    split at h
    · simp_all; exact h.symm
    split at h
    · simp_all; exact h.symm
    split at h
    · simp_all; exact h.symm
    · cases h
  · rintro (⟨rfl, rfl⟩ | ⟨rfl, rfl⟩ | ⟨rfl, rfl⟩ | ⟨rfl, rfl⟩ | ⟨rfl, rfl⟩ | ⟨rfl, rfl⟩ | ⟨rfl, rfl⟩ | ⟨rfl, rfl⟩) <;> rfl

/-- The pieces of the inside of a string. -/
inductive Pieces : Str → List Item → Prop
  | nil : Pieces [] []
  | plain {c : Char} {s : Str} {is : List Item} : c ≠ '"' → c ≠ '\\' → ¬ c.toNat < 32 → Pieces s is → Pieces (c :: s) (.ch c :: is)
  | escape {e c : Char} {s : Str} {is : List Item} : escVal e = some c → Pieces s is → Pieces ('\\' :: e :: s) (.ch c :: is)
  | unit {a b c d : Char} {s : Str} {n : Nat} {is : List Item} : hex4 a b c d = some n → Pieces s is →
    Pieces ('\\' :: 'u' :: a :: b :: c :: d :: s) (.unit n :: is)

theorem scanStr_complete {t : Str} {is : List Item} (h : Pieces t is) (r : Str) : scanStr (t ++ '"' :: r) = some (is, r) := by
  induction h with
  | nil => rw [List.nil_append, scanStr.eq_def]; simp
  | plain h1 h2 h3 _ ih => 
    rw [List.cons_append, scanStr.eq_def]
    simp only [if_neg h1, if_neg h2, if_neg h3, ih]
  | @escape e c s is h1 _ ih =>
    have h2 : e ≠ 'u' := by
      rintro rfl
      simp [escVal] at h1
    rw [List.cons_append, List.cons_append, scanStr.eq_def]
    simp only [show ('\\' : Char) ≠ '"' by decide, if_neg, if_true, if_neg h2, h1, ih, not_false_eq_true]
  | unit h1 _ ih =>
    simp only [List.cons_append]
    rw [scanStr.eq_def]
    simp only [show ('\\' : Char) ≠ '"' by decide, if_true, if_false, ih, h1]

theorem scanStr_sound : ∀ (n : Nat) {s : Str} {is : List Item} {r : Str}, s.length ≤ n → scanStr s = some (is, r) →
    ∃ t, s = t ++ '"' :: r ∧ Pieces t is
  | 0, s, is, r, hn, h => by
    have : s = [] := List.length_eq_zero_iff.mp (by omega)
    rw [this] at h; simp [scanStr] at h
  | n + 1, [], is, r, hn, h => by simp [scanStr] at h
  | n + 1, c :: s, is, r, hn, h => by
    simp only [List.length_cons] at hn
    rw [scanStr.eq_def] at h
    simp only at h
    by_cases h1 : c = '"'
    · rw [if_pos h1] at h
      simp only [Option.some.injEq, Prod.mk.injEq] at h
      obtain ⟨rfl, rfl⟩ := h
      exact ⟨[], by rw [h1]; rfl, .nil⟩
    · rw [if_neg h1] at h
      by_cases h2 : c = '\\'
      · rw [if_pos h2] at h
        cases s with
        | nil => cases h
        | cons e s =>
          simp only at h
          by_cases h3 : e = 'u'
          · rw [if_pos h3] at h
            match s, hn, h with
            | [], _, h => cases h
            | [_], _, h => cases h
            | [_, _], _, h => cases h
            | [_, _, _], _, h => cases h
            | p :: q :: x :: y :: s, hn, h =>
              simp only at h
              cases hx : hex4 p q x y with
              | none => rw [hx] at h; cases h
              | some m =>
                cases hs : scanStr s with
                | none => rw [hx, hs] at h; cases h
                | some a =>
                  rw [hx, hs] at h
                  simp only [Option.some.injEq, Prod.mk.injEq] at h
                  obtain ⟨rfl, rfl⟩ := h
                  obtain ⟨t, h5, h6⟩ := scanStr_sound n (s := s) (is := a.1) (r := a.2)
                    (by simp only [List.length_cons] at hn; omega) hs
                  exact ⟨'\\' :: 'u' :: p :: q :: x :: y :: t, by rw [h2, h3, h5]; rfl, .unit hx h6⟩
          · rw [if_neg h3] at h
            cases hx : escVal e with
            | none => rw [hx] at h; cases h
            | some m =>
              cases hs : scanStr s with
              | none => rw [hx, hs] at h; cases h
              | some a =>
                rw [hx, hs] at h
                simp only [Option.some.injEq, Prod.mk.injEq] at h
                obtain ⟨rfl, rfl⟩ := h
                obtain ⟨t, h5, h6⟩ := scanStr_sound n (s := s) (is := a.1) (r := a.2)
                  (by simp only [List.length_cons] at hn; omega) hs
                exact ⟨'\\' :: e :: t, by rw [h2, h5]; rfl, .escape hx h6⟩
      · rw [if_neg h2] at h
        by_cases h3 : c.toNat < 32
        · rw [if_pos h3] at h; cases h
        · rw [if_neg h3] at h
          cases hs : scanStr s with
          | none => rw [hs] at h; cases h
          | some a =>
            rw [hs] at h
            simp only [Option.some.injEq, Prod.mk.injEq] at h
            obtain ⟨rfl, rfl⟩ := h
            obtain ⟨t, h5, h6⟩ := scanStr_sound n (s := s) (is := a.1) (r := a.2) (by omega) hs
            exact ⟨c :: t, by rw [h5]; rfl, .plain h1 h2 h3 h6⟩

theorem isSurr_iff (n : Nat) : (isHigh n || isLow n) = true ↔ Surrogate n := by
  unfold isHigh isLow Surrogate
  simp only [Bool.or_eq_true, Bool.and_eq_true, decide_eq_true_eq]
  omega

theorem char_not_surr (c : Char) : ¬ Surrogate c.toNat := by
  unfold Surrogate
  have := c.valid
  simp only [UInt32.isValidChar, Nat.isValidChar] at this
  have e : c.val.toNat = c.toNat := rfl
  rw [e] at this
  omega

theorem toNat_ofNat {n : Nat} (h : n.isValidChar) : (Char.ofNat n).toNat = n := by
  unfold Char.ofNat
  rw [dif_pos h]
  rfl

theorem unquote_plain {n : Nat} {is : List Item} (h : ¬ Surrogate n) : unquote (.unit n :: is) = Char.ofNat n :: unquote is := by
  have h' : (isHigh n || isLow n) = false := by
    rw [← isSurr_iff] at h; simpa using h
  have hh : isHigh n = false := by
    cases hx : isHigh n
    · rfl
    · rw [hx] at h'; cases h'
  match is with
  | [] => simp only [unquote, h', Bool.false_eq_true, if_false]
  | .ch c :: is => simp only [unquote, h', Bool.false_eq_true, if_false]
  | .unit m :: is =>
    rw [hh, Bool.false_or] at h'
    simp only [unquote, h', hh, Bool.false_and, Bool.false_or, Bool.false_eq_true, if_false]

theorem unquote_pair {n m : Nat} {c : Char} {is : List Item} (h : SurrogatePair n m c) :
    unquote (.unit n :: .unit m :: is) = c :: unquote is := by
  obtain ⟨h1, h2, h3, h4, h5⟩ := h
  have hh : (isHigh n && isLow m) = true := by
    unfold isHigh isLow
    simp only [Bool.and_eq_true, decide_eq_true_eq]
    omega
  simp only [unquote, hh, if_true, List.cons.injEq, and_true]
  rw [show (n - 0xD800) * 1024 + (m - 0xDC00) + 0x10000 = c.toNat by omega]
  exact Char.ofNat_toNat c

theorem unquote_lone {n : Nat} {is : List Item} (h : Surrogate n)
    (h2 : ∀ m is' c, is = .unit m :: is' → ¬ SurrogatePair n m c) : unquote (.unit n :: is) = '\uFFFD' :: unquote is := by
  have h' : (isHigh n || isLow n) = true := (isSurr_iff n).mpr h
  match is, h2 with
  | [], _ => simp only [unquote, h', if_true]
  | .ch c :: is, _ => simp only [unquote, h', if_true]
  | .unit m :: is, h2 =>
    have h3 : ¬ (isHigh n && isLow m) = true := by
      intro h4
      unfold isHigh isLow at h4
      simp only [Bool.and_eq_true, decide_eq_true_eq] at h4
      have hv : (0x10000 + (n - 0xD800) * 0x400 + (m - 0xDC00)).isValidChar := by
        unfold Nat.isValidChar; omega
      exact h2 m is _ rfl ⟨h4.1.1, by omega, h4.2.1, by omega, toNat_ofNat hv⟩
    simp only [unquote, h', h3, if_true, if_false]
    rfl

theorem hex4_lt {a b c d : Char} {n : Nat} (h : hex4 a b c d = some n) : n < 65536 := by
  have hv : ∀ c n, Hex4.Hex c n → n < 16 := by
    intro c n h
    have hl : ∀ a b : Char, a ≤ b ↔ a.toNat ≤ b.toNat := fun a b => Iff.rfl
    have e0 : '0'.toNat = 48 := rfl
    have ea : 'a'.toNat = 97 := rfl
    have eA : 'A'.toNat = 65 := rfl
    have e9 : '9'.toNat = 57 := rfl
    have ef : 'f'.toNat = 102 := rfl
    have eF : 'F'.toNat = 70 := rfl
    unfold Hex4.Hex at h
    simp only [hl, e0, ea, eA, e9, ef, eF] at h
    omega
  obtain ⟨a, b, c, d, p, q, r, t, -, ha, hb, hc, hd, rfl⟩ := (hex4_iff _ _ _ _ _).mp h
  have := hv _ _ ha
  have := hv _ _ hb
  have := hv _ _ hc
  have := hv _ _ hd
  omega

theorem Pieces.unit_inv {s : Str} {m : Nat} {is : List Item} (h : Pieces s (.unit m :: is)) :
    ∃ a b c d s', s = '\\' :: 'u' :: a :: b :: c :: d :: s' ∧ hex4 a b c d = some m ∧ Pieces s' is := by
  cases h with
  | unit h1 h2 => exact ⟨_, _, _, _, _, rfl, h1, h2⟩

theorem chars_pieces {s t : Str} (h : Chars s t) : ∃ is, Pieces s is ∧ unquote is = t := by
  induction h with
  | nil => exact ⟨[], .nil, rfl⟩
  | @plain c s t h1 h2 h3 _ ih =>
    obtain ⟨is, h4, rfl⟩ := ih
    exact ⟨.ch c :: is, .plain h1 h2 (by omega) h4, rfl⟩
  | @escape e c s t h1 _ ih =>
    obtain ⟨is, h4, rfl⟩ := ih
    exact ⟨.ch c :: is, .escape ((escVal_iff _ _).mpr h1) h4, rfl⟩
  | @hex h s t c h1 _ ih =>
    obtain ⟨is, h4, rfl⟩ := ih
    obtain ⟨x, y, z, w, rfl, h5⟩ := h1.shape
    refine ⟨.unit c.toNat :: is, .unit h5 h4, ?_⟩
    rw [unquote_plain (char_not_surr c), Char.ofNat_toNat]
  | @pair h h' s t n m c h1 h2 h3 _ ih =>
    obtain ⟨is, h4, rfl⟩ := ih
    obtain ⟨x, y, z, w, rfl, h5⟩ := h1.shape
    obtain ⟨x', y', z', w', rfl, h6⟩ := h2.shape
    exact ⟨.unit n :: .unit m :: is, .unit h5 (.unit h6 h4), unquote_pair h3⟩
  | @lone h s t n h1 h2 h3 _ ih =>
    obtain ⟨is, h4, rfl⟩ := ih
    obtain ⟨x, y, z, w, rfl, h5⟩ := h1.shape
    refine ⟨.unit n :: is, .unit h5 h4, unquote_lone h2 ?_⟩
    rintro m is' c rfl
    obtain ⟨a, b, c', d, s', h6, h7, -⟩ := h4.unit_inv
    exact h3 [a, b, c', d] s' m c h6 ((hex4_iff _ _ _ _ _).mp h7)

theorem pieces_chars : ∀ (k : Nat) {s : Str} {is : List Item}, is.length ≤ k → Pieces s is → Chars s (unquote is)
  | k, s, [], _, h => by cases h; exact .nil
  | 0, s, _ :: _, hk, _ => by simp at hk
  | k + 1, s, .ch c :: is, hk, h => by
    simp only [List.length_cons] at hk
    cases h with
    | plain h1 h2 h3 h4 => exact .plain h1 h2 (by omega) (pieces_chars k (by omega) h4)
    | escape h1 h2 => exact .escape ((escVal_iff _ _).mp h1) (pieces_chars k (by omega) h2)
  | k + 1, s, .unit n :: is, hk, h => by
    simp only [List.length_cons] at hk
    cases h with
    | @unit a b c d s n' is' h1 h2 =>
      by_cases hs : Surrogate n
      · by_cases hp : ∃ m is' c, is = .unit m :: is' ∧ SurrogatePair n m c
        · obtain ⟨m, is', x, rfl, h3⟩ := hp
          obtain ⟨a', b', c', d', s', rfl, h6, h7⟩ := h2.unit_inv
          rw [unquote_pair h3]
          simp only [List.length_cons] at hk
          exact .pair (h := [a, b, c, d]) (h' := [a', b', c', d']) ((hex4_iff _ _ _ _ _).mp h1) ((hex4_iff _ _ _ _ _).mp h6) h3
            (pieces_chars k (by omega) h7)
        · rw [unquote_lone hs (fun m is' x h3 h4 => hp ⟨m, is', x, h3, h4⟩)]
          refine .lone (h := [a, b, c, d]) ((hex4_iff _ _ _ _ _).mp h1) hs ?_ (pieces_chars k (by omega) h2)
          rintro h' s' m x rfl h4 h5
          obtain ⟨a', b', c', d', rfl, h6⟩ := h4.shape
          have : ∃ is', is = .unit m :: is' := by
            cases h2 with
            | plain h1 h2' _ _ => exact absurd rfl h2'
            | escape h7 _ => simp [escVal] at h7
            | unit h7 _ =>
              rw [h6] at h7
              simp only [Option.some.injEq] at h7
              exact ⟨_, by rw [h7]⟩
          obtain ⟨is', h7⟩ := this
          exact hp ⟨m, is', x, h7, h5⟩
      · rw [unquote_plain hs]
        have hv : n.isValidChar := by
          have := hex4_lt h1
          unfold Surrogate at hs
          unfold Nat.isValidChar
          omega
        refine .hex (h := [a, b, c, d]) ?_ (pieces_chars k (by omega) h2)
        rw [toNat_ofNat hv]
        exact (hex4_iff _ _ _ _ _).mp h1

/-- Strings: the reader follows the grammar. -/
theorem str_sound {s : Str} {a : List Item × Str} (h : scanStr s = some a) : ∃ t, s = t ++ '"' :: a.2 ∧ Chars t (unquote a.1) := by
  obtain ⟨t, h1, h2⟩ := scanStr_sound s.length (is := a.1) (r := a.2) (Nat.le_refl _) h
  exact ⟨t, h1, pieces_chars _ (Nat.le_refl _) h2⟩

theorem str_complete {t x : Str} (h : Chars t x) (r : Str) : ∃ is, scanStr (t ++ '"' :: r) = some (is, r) ∧ unquote is = x := by
  obtain ⟨is, h1, h2⟩ := chars_pieces h
  exact ⟨is, scanStr_complete h1 r, h2⟩

/-! ### Words -/

theorem takeWord_sound : ∀ {w s r : Str}, takeWord w s = some r → s = w ++ r
  | [], s, r, h => by simp only [takeWord, Option.some.injEq] at h; simpa using h
  | _ :: _, [], _, h => by simp [takeWord] at h
  | c :: w, x :: s, r, h => by
    simp only [takeWord] at h
    by_cases hx : x = c
    · rw [if_pos hx] at h
      rw [hx, takeWord_sound h]; rfl
    · rw [if_neg hx] at h; cases h

theorem takeWord_complete : ∀ (w r : Str), takeWord w (w ++ r) = some r
  | [], r => rfl
  | c :: w, r => by simp [takeWord, takeWord_complete w r]

theorem takeWord_ne {c x : Char} {w s : Str} (h : x ≠ c) : takeWord (c :: w) (x :: s) = none := by
  simp [takeWord, h]

theorem scanAtom_sound {s r : Str} {j : J} (h : scanAtom s = some (j, r)) : ∃ t, s = t ++ r ∧ Text j t ∧ depth j = 0 := by
  unfold scanAtom at h
  cases h1 : takeWord ['n', 'u', 'l', 'l'] s with
  | some r' =>
    rw [h1] at h
    simp only [Option.some.injEq, Prod.mk.injEq] at h
    obtain ⟨rfl, rfl⟩ := h
    exact ⟨_, takeWord_sound h1, .null, by simp [depth]⟩
  | none =>
    rw [h1] at h
    simp only at h
    cases h2 : takeWord ['t', 'r', 'u', 'e'] s with
    | some r' =>
      rw [h2] at h
      simp only [Option.some.injEq, Prod.mk.injEq] at h
      obtain ⟨rfl, rfl⟩ := h
      exact ⟨_, takeWord_sound h2, .true, by simp [depth]⟩
    | none =>
      rw [h2] at h
      simp only at h
      cases h3 : takeWord ['f', 'a', 'l', 's', 'e'] s with
      | some r' =>
        rw [h3] at h
        simp only [Option.some.injEq, Prod.mk.injEq] at h
        obtain ⟨rfl, rfl⟩ := h
        exact ⟨_, takeWord_sound h3, .false, by simp [depth]⟩
      | none =>
        rw [h3] at h
        simp only at h
        cases h4 : scanNum s with
        | none => rw [h4] at h; cases h
        | some a =>
          rw [h4] at h
          simp only [Option.map_some, Option.some.injEq, Prod.mk.injEq] at h
          obtain ⟨rfl, rfl⟩ := h
          obtain ⟨h5, h6⟩ := scanNum_sound (a := a.1) (r := a.2) h4
          exact ⟨a.1, h5, .num h6, by simp [depth]⟩

theorem number_head {a : Str} (h : Number a) : ∃ c t, a = c :: t ∧ (c = '-' ∨ c.isDigit = true) := by
  obtain ⟨m, i, f, e, hm, hi, -, -, rfl⟩ := h
  rcases hm with rfl | rfl
  · obtain ⟨c, t, rfl, h⟩ := intPart_head hi
    exact ⟨c, t ++ (f ++ e), rfl, Or.inr h⟩
  · exact ⟨'-', i ++ (f ++ e), rfl, Or.inl rfl⟩

/-! ### Values -/

mutual
theorem value_sound : ∀ {n d : Nat} {s r : Str} {j : J}, value n d s = some (j, r) →
    ∃ w t, Ws w ∧ Text j t ∧ depth j ≤ d ∧ s = w ++ (t ++ r)
  | 0, _, _, _, _, h => by simp [value] at h
  | n + 1, d, s, r, j, h => by
    obtain ⟨w, hw, hs⟩ := skipWs_spec s
    rw [value.eq_def] at h
    simp only at h
    cases hc : skipWs s with
    | nil => rw [hc] at h; cases h
    | cons c x =>
      rw [hc] at h hs
      simp only at h
      by_cases h1 : c = '"'
      · rw [if_pos h1] at h
        cases hq : scanStr x with
        | none => rw [hq] at h; cases h
        | some a =>
          rw [hq] at h
          simp only [Option.map_some, Option.some.injEq, Prod.mk.injEq] at h
          obtain ⟨rfl, rfl⟩ := h
          obtain ⟨t, h2, h3⟩ := str_sound hq
          exact ⟨w, '"' :: (t ++ ['"']), hw, .str h3, by simp [depth], by rw [hs, h1, h2]; simp⟩
      · rw [if_neg h1] at h
        by_cases h2 : c = '['
        · rw [if_pos h2] at h
          cases d with
          | zero => cases h
          | succ d =>
            simp only at h
            split at h
            · next r' hr =>
              simp only [Option.some.injEq, Prod.mk.injEq] at h
              obtain ⟨rfl, rfl⟩ := h
              obtain ⟨w', hw', hx⟩ := skipWs_spec x
              rw [hr] at hx
              exact ⟨w, '[' :: (w' ++ [']']), hw, .emptyArr hw', by simp [depth, depthL], by rw [hs, h2, hx]; simp⟩
            · cases hq : elems n d x with
              | none => rw [hq] at h; cases h
              | some a =>
                rw [hq] at h
                simp only [Option.map_some, Option.some.injEq, Prod.mk.injEq] at h
                obtain ⟨rfl, rfl⟩ := h
                obtain ⟨t, h3, h4, h5⟩ := elems_sound (l := a.1) (r := a.2) hq
                exact ⟨w, '[' :: (t ++ [']']), hw, .arr h3, by simp [depth]; omega, by rw [hs, h2, h5]; simp⟩
        · rw [if_neg h2] at h
          by_cases h3 : c = '{'
          · rw [if_pos h3] at h
            cases d with
            | zero => cases h
            | succ d =>
              simp only at h
              split at h
              · next r' hr =>
                simp only [Option.some.injEq, Prod.mk.injEq] at h
                obtain ⟨rfl, rfl⟩ := h
                obtain ⟨w', hw', hx⟩ := skipWs_spec x
                rw [hr] at hx
                exact ⟨w, '{' :: (w' ++ ['}']), hw, .emptyObj hw', by simp [depth, depthM], by rw [hs, h3, hx]; simp⟩
              · cases hq : members n d x with
                | none => rw [hq] at h; cases h
                | some a =>
                  rw [hq] at h
                  simp only [Option.map_some, Option.some.injEq, Prod.mk.injEq] at h
                  obtain ⟨rfl, rfl⟩ := h
                  obtain ⟨t, h3', h4, h5⟩ := members_sound (l := a.1) (r := a.2) hq
                  exact ⟨w, '{' :: (t ++ ['}']), hw, .obj h3', by simp [depth]; omega, by rw [hs, h3, h5]; simp⟩
          · rw [if_neg h3] at h
            obtain ⟨t, h4, h5, h6⟩ := scanAtom_sound h
            exact ⟨w, t, hw, h5, by omega, by rw [hs, h4]⟩
theorem elems_sound : ∀ {n d : Nat} {s r : Str} {l : List J}, elems n d s = some (l, r) →
    ∃ t, Elems l t ∧ depthL l ≤ d ∧ s = t ++ ']' :: r
  | 0, _, _, _, _, h => by simp [elems] at h
  | n + 1, d, s, r, l, h => by
    rw [elems.eq_def] at h
    simp only at h
    cases hv : value n d s with
    | none => rw [hv] at h; cases h
    | some a =>
      rw [hv] at h
      simp only at h
      obtain ⟨w, t, h1, h2, h3, h4⟩ := value_sound (j := a.1) (r := a.2) hv
      obtain ⟨w', hw', hx⟩ := skipWs_spec a.2
      split at h
      · next r' hr =>
        rw [hr] at hx
        cases he : elems n d r' with
        | none => rw [he] at h; cases h
        | some b =>
          rw [he] at h
          simp only [Option.map_some, Option.some.injEq, Prod.mk.injEq] at h
          obtain ⟨rfl, rfl⟩ := h
          obtain ⟨t', h5, h6, h7⟩ := elems_sound (l := b.1) (r := b.2) he
          exact ⟨w ++ (t ++ (w' ++ ',' :: t')), .cons h1 h2 hw' h5, by simp [depthL]; omega, by rw [h4, hx, h7]; simp⟩
      · next r' hr =>
        rw [hr] at hx
        simp only [Option.some.injEq, Prod.mk.injEq] at h
        obtain ⟨rfl, rfl⟩ := h
        exact ⟨w ++ (t ++ w'), .one h1 h2 hw', by simp [depthL]; omega, by rw [h4, hx]; simp⟩
      · cases h
theorem members_sound : ∀ {n d : Nat} {s r : Str} {l : List (Str × J)}, members n d s = some (l, r) →
    ∃ t, Members l t ∧ depthM l ≤ d ∧ s = t ++ '}' :: r
  | 0, _, _, _, _, h => by simp [members] at h
  | n + 1, d, s, r, l, h => by
    obtain ⟨w0, hw0, hs⟩ := skipWs_spec s
    rw [members.eq_def] at h
    simp only at h
    split at h
    · next s1 hs1 =>
      rw [hs1] at hs
      cases hq : scanStr s1 with
      | none => rw [hq] at h; cases h
      | some k =>
        rw [hq] at h
        simp only at h
        obtain ⟨tk, hk1, hk2⟩ := str_sound hq
        obtain ⟨w1, hw1, hx1⟩ := skipWs_spec k.2
        split at h
        · next s2 hs2 =>
          rw [hs2] at hx1
          cases hv : value n d s2 with
          | none => rw [hv] at h; cases h
          | some a =>
            rw [hv] at h
            simp only at h
            obtain ⟨w, t, h1, h2, h3, h4⟩ := value_sound (j := a.1) (r := a.2) hv
            obtain ⟨w', hw', hx⟩ := skipWs_spec a.2
            split at h
            · next r' hr =>
              rw [hr] at hx
              cases he : members n d r' with
              | none => rw [he] at h; cases h
              | some b =>
                rw [he] at h
                simp only [Option.map_some, Option.some.injEq, Prod.mk.injEq] at h
                obtain ⟨rfl, rfl⟩ := h
                obtain ⟨t', h5, h6, h7⟩ := members_sound (l := b.1) (r := b.2) he
                exact ⟨_, .cons hw0 hk2 hw1 h1 h2 hw' h5, by simp [depthM]; omega, by rw [hs, hk1, hx1, h4, hx, h7]; simp⟩
            · next r' hr =>
              rw [hr] at hx
              simp only [Option.some.injEq, Prod.mk.injEq] at h
              obtain ⟨rfl, rfl⟩ := h
              exact ⟨_, .one hw0 hk2 hw1 h1 h2 hw', by simp [depthM]; omega, by rw [hs, hk1, hx1, h4, hx]; simp⟩
            · cases h
        · cases h
    · cases h
end

theorem value_ws {w : Str} (hw : Ws w) (n d : Nat) (s : Str) : value n d (w ++ s) = value n d s := by
  cases n with
  | zero => simp [value]
  | succ n =>
    rw [value.eq_def (n + 1) d (w ++ s), value.eq_def (n + 1) d s]
    simp only [skipWs_append hw]

/-- A value begins with a character that is neither white space nor the end of an array or an object. -/
theorem text_head {j : J} {t : Str} (h : Text j t) : ∃ c t', t = c :: t' ∧ isWs c = false ∧ c ≠ ']' ∧ c ≠ '}' := by
  cases h with
  | null => exact ⟨'n', _, rfl, by decide, by decide, by decide⟩
  | «true» => exact ⟨'t', _, rfl, by decide, by decide, by decide⟩
  | «false» => exact ⟨'f', _, rfl, by decide, by decide, by decide⟩
  | num h =>
    obtain ⟨c, t', rfl, h1⟩ := number_head h
    refine ⟨c, t', rfl, ?_⟩
    rcases h1 with rfl | h1
    · decide
    · refine ⟨?_, ?_, ?_⟩
      · cases hw : isWs c with
        | false => rfl
        | true =>
          rcases (isWs_iff c).mp hw with rfl | rfl | rfl | rfl <;> exact absurd h1 (by decide)
      · rintro rfl; exact absurd h1 (by decide)
      · rintro rfl; exact absurd h1 (by decide)
  | str _ => exact ⟨'"', _, rfl, by decide, by decide, by decide⟩
  | emptyArr _ => exact ⟨'[', _, rfl, by decide, by decide, by decide⟩
  | arr _ => exact ⟨'[', _, rfl, by decide, by decide, by decide⟩
  | emptyObj _ => exact ⟨'{', _, rfl, by decide, by decide, by decide⟩
  | obj _ => exact ⟨'{', _, rfl, by decide, by decide, by decide⟩

theorem elems_head {l : List J} {t : Str} (h : Elems l t) (r : Str) : ∃ c x, skipWs (t ++ r) = c :: x ∧ c ≠ ']' := by
  cases h with
  | one h1 h2 h3 =>
    obtain ⟨c, t', rfl, h4, h5, -⟩ := text_head h2
    simp only [List.append_assoc, List.cons_append]
    exact ⟨c, _, by rw [skipWs_append h1, skipWs_stop h4], h5⟩
  | cons h1 h2 h3 _ =>
    obtain ⟨c, t', rfl, h4, h5, -⟩ := text_head h2
    simp only [List.append_assoc, List.cons_append]
    exact ⟨c, _, by rw [skipWs_append h1, skipWs_stop h4], h5⟩

theorem members_head {l : List (Str × J)} {t : Str} (h : Members l t) (r : Str) : ∃ x, skipWs (t ++ r) = '"' :: x := by
  cases h with
  | one h1 =>
    simp only [List.append_assoc, List.cons_append]
    exact ⟨_, by rw [skipWs_append h1, skipWs_stop (by decide)]⟩
  | cons h1 =>
    simp only [List.append_assoc, List.cons_append]
    exact ⟨_, by rw [skipWs_append h1, skipWs_stop (by decide)]⟩

theorem ends_ws {w : Str} {c : Char} {r : Str} (hw : Ws w) (hc : c = ',' ∨ c = ']' ∨ c = '}') : Ends (w ++ c :: r) := by
  intro x s h
  have hx : x ∈ w ∨ x = c := by
    cases w with
    | nil =>
      simp only [List.nil_append, List.cons.injEq] at h
      exact Or.inr h.1.symm
    | cons y w =>
      simp only [List.cons_append, List.cons.injEq] at h
      exact Or.inl (by rw [h.1]; simp)
  rcases hx with hx | rfl
  · rcases hw x hx with rfl | rfl | rfl | rfl <;> decide
  · rcases hc with rfl | rfl | rfl <;> decide

/-- The rest after a value: anything, except after a number. -/
def After (j : J) (r : Str) : Prop := (∃ s, j = .num s) → Ends r

theorem scanAtom_num {a r : Str} (ha : Number a) (hr : Ends r) : scanAtom (a ++ r) = some (.num a, r) := by
  have h := scanNum_complete ha hr
  obtain ⟨c, t, rfl, hc⟩ := number_head ha
  have hx : c ≠ 'n' ∧ c ≠ 't' ∧ c ≠ 'f' := by
    rcases hc with rfl | hc
    · decide
    · refine ⟨?_, ?_, ?_⟩ <;> (rintro rfl; exact absurd hc (by decide))
  unfold scanAtom
  rw [List.cons_append] at h ⊢
  rw [takeWord_ne hx.1, takeWord_ne hx.2.1, takeWord_ne hx.2.2, h]
  rfl

mutual
theorem value_complete : ∀ {j : J} {t : Str}, Text j t → ∀ (n d : Nat) (r : Str), depth j ≤ d → 2 * t.length + 1 ≤ n →
    After j r → value n d (t ++ r) = some (j, r)
  | _, _, .null, n + 1, d, r, _, _, _ => by
    rw [value.eq_def]
    have e : "null".toList ++ r = 'n' :: 'u' :: 'l' :: 'l' :: r := rfl
    rw [e]
    simp only
    rw [skipWs_stop (by decide)]
    rfl
  | _, _, .true, n + 1, d, r, _, _, _ => by
    rw [value.eq_def]
    have e : "true".toList ++ r = 't' :: 'r' :: 'u' :: 'e' :: r := rfl
    rw [e]
    simp only
    rw [skipWs_stop (by decide)]
    rfl
  | _, _, .false, n + 1, d, r, _, _, _ => by
    rw [value.eq_def]
    have e : "false".toList ++ r = 'f' :: 'a' :: 'l' :: 's' :: 'e' :: r := rfl
    rw [e]
    simp only
    rw [skipWs_stop (by decide)]
    rfl
  | _, _, .num (s := s) hs, n + 1, d, r, _, _, ha => by
    have h1 := scanAtom_num hs (ha ⟨_, rfl⟩)
    obtain ⟨c, t, rfl, hc⟩ := number_head hs
    have hw : isWs c = false := by
      obtain ⟨c', t', e, h, -⟩ := text_head (.num hs)
      simp only [List.cons.injEq] at e
      rw [e.1]; exact h
    have hx : c ≠ '"' ∧ c ≠ '[' ∧ c ≠ '{' := by
      rcases hc with rfl | hc
      · decide
      · refine ⟨?_, ?_, ?_⟩ <;> (rintro rfl; exact absurd hc (by decide))
    rw [value.eq_def]
    rw [List.cons_append] at h1 ⊢
    simp only
    rw [skipWs_stop hw]
    simp only [if_neg hx.1, if_neg hx.2.1, if_neg hx.2.2]
    exact h1
  | _, _, .str (s := s) hs, n + 1, d, r, _, _, _ => by
    obtain ⟨is, h1, h2⟩ := str_complete hs r
    rw [value.eq_def]
    have e : '"' :: (s ++ ['"']) ++ r = '"' :: (s ++ '"' :: r) := by simp
    rw [e]
    simp only
    rw [skipWs_stop (by decide)]
    simp only [if_true, h1, Option.map_some, h2]
  | _, _, .emptyArr (w := w) hw, n + 1, d, r, hd, _, _ => by
    rw [value.eq_def]
    have e : '[' :: (w ++ [']']) ++ r = '[' :: (w ++ ']' :: r) := by simp
    rw [e]
    simp only
    rw [skipWs_stop (by decide)]
    simp only [show ('[' : Char) ≠ '"' by decide, if_true, if_false]
    cases d with
    | zero => simp [depth] at hd
    | succ d =>
      simp only
      rw [skipWs_append hw, skipWs_stop (by decide)]
      rfl
  | _, _, .arr (l := l) (s := s) hs, n + 1, d, r, hd, hn, _ => by
    rw [value.eq_def]
    have e : '[' :: (s ++ [']']) ++ r = '[' :: (s ++ ']' :: r) := by simp
    rw [e]
    simp only
    rw [skipWs_stop (by decide)]
    simp only [show ('[' : Char) ≠ '"' by decide, if_true, if_false]
    cases d with
    | zero => simp [depth] at hd
    | succ d =>
      simp only [depth] at hd
      simp only [List.length_cons, List.length_append, List.length_nil] at hn
      have h1 := elems_complete hs n d r (by omega) (by omega)
      obtain ⟨c, x, h2, h3⟩ := elems_head hs (']' :: r)
      simp only [h2, h1]
      split
      · next r' heq => simp only [List.cons.injEq] at heq; exact absurd heq.1 h3
      · rfl
  | _, _, .emptyObj (w := w) hw, n + 1, d, r, hd, _, _ => by
    rw [value.eq_def]
    have e : '{' :: (w ++ ['}']) ++ r = '{' :: (w ++ '}' :: r) := by simp
    rw [e]
    simp only
    rw [skipWs_stop (by decide)]
    simp only [show ('{' : Char) ≠ '"' by decide, show ('{' : Char) ≠ '[' by decide, if_true, if_false]
    cases d with
    | zero => simp [depth] at hd
    | succ d =>
      simp only
      rw [skipWs_append hw, skipWs_stop (by decide)]
      rfl
  | _, _, .obj (l := l) (s := s) hs, n + 1, d, r, hd, hn, _ => by
    rw [value.eq_def]
    have e : '{' :: (s ++ ['}']) ++ r = '{' :: (s ++ '}' :: r) := by simp
    rw [e]
    simp only
    rw [skipWs_stop (by decide)]
    simp only [show ('{' : Char) ≠ '"' by decide, show ('{' : Char) ≠ '[' by decide, if_true, if_false]
    cases d with
    | zero => simp [depth] at hd
    | succ d =>
      simp only [depth] at hd
      simp only [List.length_cons, List.length_append, List.length_nil] at hn
      have h1 := members_complete hs n d r (by omega) (by omega)
      obtain ⟨x, h2⟩ := members_head hs ('}' :: r)
      simp only [h2, h1]
      split
      · next r' heq => simp only [List.cons.injEq] at heq; exact absurd heq.1 (by decide)
      · rfl
theorem elems_complete : ∀ {l : List J} {t : Str}, Elems l t → ∀ (n d : Nat) (r : Str), depthL l ≤ d → 2 * t.length + 2 ≤ n →
    elems n d (t ++ ']' :: r) = some (l, r)
  | _, _, .one (j := j) (w := w) (s := s) (w' := w') h1 h2 h3, n + 1, d, r, hd, hn => by
    simp only [depthL] at hd
    simp only [List.length_append] at hn
    have h4 := value_complete h2 n d (w' ++ ']' :: r) (by omega) (by omega) (fun _ => ends_ws h3 (by simp))
    have e : w ++ (s ++ w') ++ ']' :: r = w ++ (s ++ (w' ++ ']' :: r)) := by simp
    rw [e, elems.eq_def]
    simp only [value_ws h1, h4, skipWs_append h3]
    rw [skipWs_stop (by decide)]
    rfl
  | _, _, .cons (j := j) (l := l) (w := w) (s := s) (w' := w') (r := q) h1 h2 h3 h5, n + 1, d, r, hd, hn => by
    simp only [depthL] at hd
    simp only [List.length_append, List.length_cons] at hn
    have h4 := value_complete h2 n d (w' ++ ',' :: (q ++ ']' :: r)) (by omega) (by omega) (fun _ => ends_ws h3 (by simp))
    have h6 := elems_complete h5 n d r (by omega) (by omega)
    have e : w ++ (s ++ (w' ++ ',' :: q)) ++ ']' :: r = w ++ (s ++ (w' ++ ',' :: (q ++ ']' :: r))) := by simp
    rw [e, elems.eq_def]
    simp only [value_ws h1, h4, skipWs_append h3]
    rw [skipWs_stop (by decide)]
    simp only [h6, Option.map_some]
theorem members_complete : ∀ {l : List (Str × J)} {t : Str}, Members l t → ∀ (n d : Nat) (r : Str), depthM l ≤ d →
    2 * t.length + 2 ≤ n → members n d (t ++ '}' :: r) = some (l, r)
  | _, _, .one (k := k) (n := nm) (j := j) (w := w) (w1 := w1) (w2 := w2) (w3 := w3) (s := s) h0 hk h1 h2 h3 h4,
      n + 1, d, r, hd, hn => by
    simp only [depthM] at hd
    simp only [List.length_append, List.length_cons] at hn
    have h5 := value_complete h3 n d (w3 ++ '}' :: r) (by omega) (by omega) (fun _ => ends_ws h4 (by simp))
    have e : w ++ '"' :: (nm ++ '"' :: (w1 ++ ':' :: (w2 ++ (s ++ w3)))) ++ '}' :: r =
        w ++ '"' :: (nm ++ '"' :: (w1 ++ ':' :: (w2 ++ (s ++ (w3 ++ '}' :: r))))) := by simp
    obtain ⟨is, hs1, hs2⟩ := str_complete hk (w1 ++ ':' :: (w2 ++ (s ++ (w3 ++ '}' :: r))))
    rw [e, members.eq_def]
    simp only
    rw [skipWs_append h0, skipWs_stop (by decide)]
    simp only [hs1]
    rw [skipWs_append h1, skipWs_stop (by decide)]
    simp only [value_ws h2, h5]
    rw [skipWs_append h4, skipWs_stop (by decide)]
    simp only [hs2]
  | _, _, .cons (k := k) (n := nm) (j := j) (l := l) (w := w) (w1 := w1) (w2 := w2) (w3 := w3) (s := s) (r := q)
      h0 hk h1 h2 h3 h4 h7, n + 1, d, r, hd, hn => by
    simp only [depthM] at hd
    simp only [List.length_append, List.length_cons] at hn
    have h5 := value_complete h3 n d (w3 ++ ',' :: (q ++ '}' :: r)) (by omega) (by omega) (fun _ => ends_ws h4 (by simp))
    have h6 := members_complete h7 n d r (by omega) (by omega)
    have e : w ++ '"' :: (nm ++ '"' :: (w1 ++ ':' :: (w2 ++ (s ++ (w3 ++ ',' :: q))))) ++ '}' :: r =
        w ++ '"' :: (nm ++ '"' :: (w1 ++ ':' :: (w2 ++ (s ++ (w3 ++ ',' :: (q ++ '}' :: r)))))) := by simp
    obtain ⟨is, hs1, hs2⟩ := str_complete hk (w1 ++ ':' :: (w2 ++ (s ++ (w3 ++ ',' :: (q ++ '}' :: r)))))
    rw [e, members.eq_def]
    simp only
    rw [skipWs_append h0, skipWs_stop (by decide)]
    simp only [hs1]
    rw [skipWs_append h1, skipWs_stop (by decide)]
    simp only [value_ws h2, h5]
    rw [skipWs_append h4, skipWs_stop (by decide)]
    simp only [hs2, h6, Option.map_some]
end

end Verif.JText
