import Verif.Proof.JsonDoc
import Verif.Props.DocForms
import Verif.Props.Mbtiles

/-!
# C95: JSON texts
-/
namespace Verif.JText

open Verif.Doc Verif.Go

/-! ### Which texts are read, and as what -/

/-- **C95.** `json.Unmarshal` takes exactly the texts of the grammar of RFC 8259 — a value with white space around it and
nothing else — whose arrays and objects are nested at most 10000 deep, and finds the document the grammar says they
mean. -/
theorem C95_reads (s : Str) (j : J) : unmarshal s = some j ↔ JsonText s j ∧ depth j ≤ 10000 := by
  unfold unmarshal
  constructor
  · intro h
    cases hv : value (calls s) maxDepth s with
    | none => rw [hv] at h; cases h
    | some a =>
      rw [hv] at h
      simp only at h
      obtain ⟨w, t, h1, h2, h3, h4⟩ := value_sound (j := a.1) (r := a.2) hv
      by_cases hr : skipWs a.2 = []
      · rw [if_pos hr] at h
        simp only [Option.some.injEq] at h
        rw [← h]
        exact ⟨⟨w, t, a.2, h1, h2, ws_of_skipWs hr, h4⟩, h3⟩
      · rw [if_neg hr] at h; cases h
  · rintro ⟨⟨w, t, w', h1, h2, h3, rfl⟩, hd⟩
    have he : Ends w' := by
      intro c s hc
      have := h3 c (by rw [hc]; simp)
      rcases this with rfl | rfl | rfl | rfl <;> decide
    rw [value_ws h1, value_complete h2 _ maxDepth w' hd (by unfold calls; simp only [List.length_append]; omega) (fun _ => he)]
    simp only [skipWs_ws h3, if_true]

/-- **C95.** `Decoder.Decode` reads the first value of a text: white space, the text of a value, and anything after it — it
is not looked at, unless the value is a number, which must have come to an end. What it finds is such a value. -/
theorem C95_first (s : Str) (j : J) :
    (decode s = some j → ∃ w t r, Ws w ∧ Text j t ∧ s = w ++ (t ++ r) ∧ depth j ≤ 10000) ∧
    (∀ w t r, Ws w → Text j t → s = w ++ (t ++ r) → depth j ≤ 10000 → ((∃ n, j = .num n) → Ends r) → decode s = some j) := by
  unfold decode
  constructor
  · intro h
    cases hv : value (calls s) maxDepth s with
    | none => rw [hv] at h; cases h
    | some a =>
      rw [hv] at h
      simp only [Option.map_some, Option.some.injEq] at h
      obtain ⟨w, t, h1, h2, h3, h4⟩ := value_sound (j := a.1) (r := a.2) hv
      rw [← h]
      exact ⟨w, t, a.2, h1, h2, h4, h3⟩
  · rintro w t r h1 h2 rfl hd he
    rw [value_ws h1, value_complete h2 _ maxDepth r hd (by unfold calls; simp only [List.length_append]; omega) he]
    rfl

theorem text_prefix {j j' : J} {w t t' r : Str} (hw : Ws w) (h : Text j t) (h' : Text j' t') (he : t = w ++ (t' ++ r))
    (ha : (∃ n, j' = .num n) → Ends r) : j = j' ∧ r = [] := by
  have h1 := value_complete h (2 * t.length + 1) (max (depth j) (depth j')) [] (by omega) (by omega) (fun _ => by
    intro c s hc; cases hc)
  have h2 := value_complete h' (2 * t.length + 1) (max (depth j) (depth j')) r (by omega)
    (by rw [he]; simp only [List.length_append]; omega) ha
  rw [List.append_nil] at h1
  rw [he, value_ws hw, ← he] at h1
  rw [h2] at h1
  simp only [Option.some.injEq, Prod.mk.injEq] at h1
  exact ⟨h1.1.symm, h1.2⟩

/-- **C95.** A text means one document only. -/
theorem C95_unambiguous (s : Str) (j j' : J) (h : JsonText s j) (h' : JsonText s j') : j = j' := by
  obtain ⟨w, t, r, h1, h2, h3, rfl⟩ := h
  obtain ⟨w', t', r', h4, h5, h6, he⟩ := h'
  have e1 : Ends r := by
    intro c s hc
    rcases h3 c (by rw [hc]; simp) with rfl | rfl | rfl | rfl <;> decide
  have e2 : Ends r' := by
    intro c s hc
    rcases h6 c (by rw [hc]; simp) with rfl | rfl | rfl | rfl <;> decide
  have v1 := value_complete h2 (2 * t.length + 2 * t'.length + 1) (max (depth j) (depth j')) r (by omega) (by omega) (fun _ => e1)
  have v2 := value_complete h5 (2 * t.length + 2 * t'.length + 1) (max (depth j) (depth j')) r' (by omega) (by omega)
    (fun _ => e2)
  rw [← value_ws h1, he, value_ws h4, v2] at v1
  simp only [Option.some.injEq, Prod.mk.injEq] at v1
  exact v1.1.symm

/-- **C95.** An array or an object that is cut short anywhere is refused: nothing is read from it. -/
theorem C95_cut_short (j : J) (t p : Str) (h : Text j t) (hj : (∃ l, j = .arr l) ∨ ∃ l, j = .obj l) (hp : p <+: t) (hne : p ≠ t) :
    decode p = none ∧ unmarshal p = none := by
  obtain ⟨q, rfl⟩ := hp
  have key : ∀ n d a, value n d p = some a → False := by
    intro n d a hv
    obtain ⟨w, t', h1, h2, h3, h4⟩ := value_sound (j := a.1) (r := a.2) hv
    have ht : p ++ q = w ++ (t' ++ (a.2 ++ q)) := by rw [h4]; simp
    have hnum : (∃ n, a.1 = .num n) → Ends (a.2 ++ q) := by
      rintro ⟨n, hn⟩
      exfalso
      obtain ⟨c, x, hx, hw, -⟩ := text_head h
      have hw0 : w = [] := by
        cases w with
        | nil => rfl
        | cons y w =>
          rw [hx, List.cons_append, List.cons.injEq] at ht
          have := (isWs_iff y).mpr (h1 y (by simp))
          rw [← ht.1, hw] at this
          cases this
      subst hw0
      have hc : c = '[' ∨ c = '{' := by
        rcases hj with ⟨l, rfl⟩ | ⟨l, rfl⟩
        · left
          generalize p ++ q = u at h hx
          subst hx
          cases h <;> rfl
        · right
          generalize p ++ q = u at h hx
          subst hx
          cases h <;> rfl
      rw [hn] at h2
      cases h2 with
      | num h2 =>
        obtain ⟨c', x', hx', hc'⟩ := number_head h2
        rw [hx, hx', List.nil_append, List.cons_append, List.cons.injEq] at ht
        rw [← ht.1] at hc'
        rcases hc with rfl | rfl <;> rcases hc' with hc' | hc' <;> exact absurd hc' (by decide)
    obtain ⟨-, h5⟩ := text_prefix h1 h h2 ht hnum
    have hq : q = [] := (List.append_eq_nil_iff.mp h5).2
    rw [hq, List.append_nil] at hne
    exact hne rfl
  constructor
  · unfold decode
    cases hv : value (calls p) maxDepth p with
    | none => rfl
    | some a => exact (key _ _ a hv).elim
  · unfold unmarshal
    cases hv : value (calls p) maxDepth p with
    | none => rfl
    | some a => exact (key _ _ a hv).elim

/-! ### What is written -/

theorem hexDigit_hex {n : Nat} (h : n < 16) : Hex4.Hex (hexDigit n) n := by
  have : ∀ m : Fin 16, hexVal (hexDigit m.val) = some m.val := by decide
  exact (hexVal_iff _ _).mp (this ⟨n, h⟩)

theorem chars_hexEsc {c : Char} (h : c.toNat < 65536) {s t : Str} (hs : Chars s t) : Chars (hexEsc c.toNat ++ s) (c :: t) := by
  refine Chars.hex (h := [_, _, _, _]) ⟨_, _, _, _, _, _, _, _, rfl, hexDigit_hex (Nat.mod_lt _ (by norm_num)),
    hexDigit_hex (Nat.mod_lt _ (by norm_num)), hexDigit_hex (Nat.mod_lt _ (by norm_num)),
    hexDigit_hex (Nat.mod_lt _ (by norm_num)), ?_⟩ hs
  generalize c.toNat = n at h
  omega

theorem chars_escChar (c : Char) {s t : Str} (hs : Chars s t) : Chars (escChar c ++ s) (c :: t) := by
  unfold escChar
  by_cases h1 : c = '"'
  · rw [if_pos h1, h1]; exact .escape (by unfold Escape; simp) hs
  rw [if_neg h1]
  by_cases h2 : c = '\\'
  · rw [if_pos h2, h2]; exact .escape (by unfold Escape; simp) hs
  rw [if_neg h2]
  by_cases h3 : c = '\n'
  · rw [if_pos h3, h3]; exact .escape (by unfold Escape; simp) hs
  rw [if_neg h3]
  by_cases h4 : c = '\r'
  · rw [if_pos h4, h4]; exact .escape (by unfold Escape; simp) hs
  rw [if_neg h4]
  by_cases h5 : c = '\t'
  · rw [if_pos h5, h5]; exact .escape (by unfold Escape; simp) hs
  rw [if_neg h5]
  by_cases h6 : c.toNat < 32 ∨ c = '<' ∨ c = '>' ∨ c = '&' ∨ c.toNat = 0x2028 ∨ c.toNat = 0x2029
  · rw [if_pos h6]
    refine chars_hexEsc ?_ hs
    rcases h6 with h | rfl | rfl | rfl | h | h
    · omega
    · decide
    · decide
    · decide
    · omega
    · omega
  · rw [if_neg h6]
    exact .plain h1 h2 (by omega) hs

theorem chars_escStr : ∀ s : Str, Chars (escStr s) s
  | [] => .nil
  | c :: s => chars_escChar c (chars_escStr s)

mutual
theorem text_print : ∀ j : J, Spelled j → Text j (print j)
  | .null, _ => by simp only [print]; exact .null
  | .bool true, _ => by simp only [print]; exact .true
  | .bool false, _ => by simp only [print]; exact .false
  | .num l, h => by simp only [Spelled] at h; simp only [print]; exact .num h
  | .str s, _ => by simp only [print]; exact .str (chars_escStr s)
  | .arr [], _ => by simp only [print, printL]; exact .emptyArr ws_nil
  | .arr (j :: l), h => by
    simp only [Spelled] at h
    simp only [print]
    exact .arr (elems_print (j :: l) (by simp) h)
  | .obj [], _ => by simp only [print, printM]; exact .emptyObj ws_nil
  | .obj (m :: l), h => by
    simp only [Spelled] at h
    simp only [print]
    exact .obj (members_print (m :: l) (by simp) h)
theorem elems_print : ∀ (l : List J), l ≠ [] → SpelledL l → Elems l (printL l)
  | [], h, _ => absurd rfl h
  | [j], _, h => by
    simp only [SpelledL] at h
    simp only [printL]
    have := Elems.one ws_nil (text_print j h.1) ws_nil
    simpa using this
  | j :: j' :: l, _, h => by
    have h' : Spelled j ∧ SpelledL (j' :: l) := by simpa [SpelledL] using h
    simp only [printL]
    have := Elems.cons ws_nil (text_print j h'.1) ws_nil (elems_print (j' :: l) (by simp) h'.2)
    simpa using this
theorem members_print : ∀ (l : List (Str × J)), l ≠ [] → SpelledM l → Members l (printM l)
  | [], h, _ => absurd rfl h
  | [(k, j)], _, h => by
    simp only [SpelledM] at h
    simp only [printM]
    have := Members.one ws_nil (chars_escStr k) ws_nil ws_nil (text_print j h.1) ws_nil
    simpa using this
  | (k, j) :: m :: l, _, h => by
    have h' : Spelled j ∧ SpelledM (m :: l) := by simpa [SpelledM] using h
    simp only [printM]
    have := Members.cons ws_nil (chars_escStr k) ws_nil ws_nil (text_print j h'.1) ws_nil (members_print (m :: l) (by simp) h'.2)
    simpa using this
end

/-- **C95.** What `json.Marshal` writes is a JSON text that means the document — whatever quotation marks, backslashes, line
ends, control characters and other letters its texts and names contain. -/
theorem C95_writes (j : J) (h : Spelled j) : Text j (print j) ∧ JsonText (print j) j ∧ JsonText (encode j) j := by
  refine ⟨text_print j h, ⟨[], print j, [], ws_nil, text_print j h, ws_nil, by simp⟩,
    ⟨[], print j, ['\n'], ws_nil, text_print j h, ?_, rfl⟩⟩
  intro c hc
  simp only [List.mem_singleton] at hc
  subst hc
  simp

/-- **C95.** What is written is read back: by `Unmarshal`, and by `Decode` whatever follows it (a number must have come to an
end). Deeper documents are written as well, but `Unmarshal` and `Decode` refuse them. -/
theorem C95_roundtrip (j : J) (h : Spelled j) :
    (depth j ≤ 10000 → unmarshal (print j) = some j ∧ unmarshal (encode j) = some j ∧ decode (encode j) = some j ∧
      ((∀ n, j ≠ .num n) → ∀ rest, decode (print j ++ rest) = some j)) ∧
    (10000 < depth j → unmarshal (print j) = none ∧ decode (print j) = none) := by
  obtain ⟨h1, h2, h3⟩ := C95_writes j h
  constructor
  · intro hd
    refine ⟨(C95_reads _ _).mpr ⟨h2, hd⟩, (C95_reads _ _).mpr ⟨h3, hd⟩, ?_, ?_⟩
    · refine (C95_first _ _).2 [] (print j) ['\n'] ws_nil h1 rfl hd (fun _ => ?_)
      intro c s hc
      simp only [List.cons.injEq] at hc
      rw [← hc.1]
      decide
    · intro hn rest
      exact (C95_first _ _).2 [] (print j) rest ws_nil h1 rfl hd (fun ⟨n, hj⟩ => absurd hj (hn n))
  · intro hd
    constructor
    · cases hu : unmarshal (print j) with
      | none => rfl
      | some j' =>
        obtain ⟨h4, h5⟩ := (C95_reads _ _).mp hu
        rw [C95_unambiguous _ _ _ h2 h4] at hd
        omega
    · cases hu : decode (print j) with
      | none => rfl
      | some j' =>
        exfalso
        obtain ⟨w, t, r, h4, h5, h6, h7⟩ := (C95_first _ _).1 hu
        by_cases hn : ∃ n, j' = .num n
        · -- a number cannot be the front of an array or an object
          obtain ⟨c, x, hx, hw, -⟩ := text_head h1
          have hw0 : w = [] := by
            cases w with
            | nil => rfl
            | cons y w =>
              rw [hx, List.cons_append, List.cons.injEq] at h6
              have := (isWs_iff y).mpr (h4 y (by simp))
              rw [← h6.1, hw] at this
              cases this
          subst hw0
          obtain ⟨n, rfl⟩ := hn
          cases h5 with
          | num h5 =>
            obtain ⟨c', x', hx', hc'⟩ := number_head h5
            rw [hx, hx', List.nil_append, List.cons_append, List.cons.injEq] at h6
            rw [← h6.1] at hc'
            cases j with
            | null => simp [depth] at hd
            | bool b => simp [depth] at hd
            | num s => simp [depth] at hd
            | str s => simp [depth] at hd
            | arr l =>
              simp only [print, List.cons.injEq] at hx
              rw [← hx.1] at hc'
              rcases hc' with hc' | hc' <;> exact absurd hc' (by decide)
            | obj l =>
              simp only [print, List.cons.injEq] at hx
              rw [← hx.1] at hc'
              rcases hc' with hc' | hc' <;> exact absurd hc' (by decide)
        · obtain ⟨h8, -⟩ := text_prefix h4 h1 h5 h6 (fun h => absurd h hn)
          rw [h8] at hd
          omega

/-- A character that is safe in HTML and JavaScript. -/
def Safe (c : Char) : Prop := c ≠ '<' ∧ c ≠ '>' ∧ c ≠ '&' ∧ c ≠ '\u2028' ∧ c ≠ '\u2029' ∧ 0x20 ≤ c.toNat

theorem hexDigit_safe (n : Nat) : Safe (hexDigit (n % 16)) := by
  have : ∀ m : Fin 16, Safe (hexDigit m.val) := by unfold Safe; decide
  exact this ⟨n % 16, Nat.mod_lt _ (by norm_num)⟩

theorem escChar_safe (c : Char) : ∀ x ∈ escChar c, Safe x := by
  unfold escChar
  by_cases h1 : c = '"'
  · rw [if_pos h1]; unfold Safe; decide
  rw [if_neg h1]
  by_cases h2 : c = '\\'
  · rw [if_pos h2]; unfold Safe; decide
  rw [if_neg h2]
  by_cases h3 : c = '\n'
  · rw [if_pos h3]; unfold Safe; decide
  rw [if_neg h3]
  by_cases h4 : c = '\r'
  · rw [if_pos h4]; unfold Safe; decide
  rw [if_neg h4]
  by_cases h5 : c = '\t'
  · rw [if_pos h5]; unfold Safe; decide
  rw [if_neg h5]
  by_cases h6 : c.toNat < 32 ∨ c = '<' ∨ c = '>' ∨ c = '&' ∨ c.toNat = 0x2028 ∨ c.toNat = 0x2029
  · rw [if_pos h6]
    intro x hx
    unfold hexEsc at hx
    simp only [List.mem_cons, List.not_mem_nil, or_false] at hx
    rcases hx with rfl | rfl | rfl | rfl | rfl | rfl
    · unfold Safe; decide
    · unfold Safe; decide
    all_goals exact hexDigit_safe _
  · rw [if_neg h6]
    intro x hx
    simp only [List.mem_singleton] at hx
    subst hx
    push Not at h6
    refine ⟨h6.2.1, h6.2.2.1, h6.2.2.2.1, ?_, ?_, by omega⟩
    · rintro rfl; exact h6.2.2.2.2.1 rfl
    · rintro rfl; exact h6.2.2.2.2.2 rfl

theorem escStr_safe : ∀ s : Str, ∀ x ∈ escStr s, Safe x
  | [], x, hx => by simp [escStr] at hx
  | c :: s, x, hx => by
    simp only [escStr, List.mem_append] at hx
    rcases hx with hx | hx
    · exact escChar_safe c x hx
    · exact escStr_safe s x hx

theorem digit_safe {c : Char} (h : '0' ≤ c ∧ c ≤ '9') : Safe c := by
  have h1 : 48 ≤ c.toNat := h.1
  have h2 : c.toNat ≤ 57 := h.2
  refine ⟨?_, ?_, ?_, ?_, ?_, by omega⟩ <;> (rintro rfl; revert h1 h2; decide)

theorem number_safe {s : Str} (h : Number s) : ∀ x ∈ s, Safe x := by
  obtain ⟨m, i, f, e, hm, hi, hf, he, rfl⟩ := h
  have hd : ∀ d, Digits d → ∀ x ∈ d, Safe x := fun d h x hx => digit_safe (h.2 x hx)
  intro x hx
  simp only [List.mem_append] at hx
  rcases hx with hx | hx | hx | hx
  · rcases hm with rfl | rfl
    · cases hx
    · simp only [List.mem_singleton] at hx; subst hx; unfold Safe; decide
  · rcases hi with rfl | ⟨hi, -⟩
    · simp only [List.mem_singleton] at hx; subst hx; unfold Safe; decide
    · exact hd _ hi x hx
  · rcases hf with rfl | ⟨d, h1, rfl⟩
    · cases hx
    · rcases List.mem_cons.mp hx with rfl | hx
      · unfold Safe; decide
      · exact hd _ h1 x hx
  · rcases he with rfl | ⟨c, g, d, h1, h2, h3, rfl⟩
    · cases hx
    · simp only [List.mem_cons, List.mem_append] at hx
      rcases hx with rfl | hx | hx
      · rcases h1 with rfl | rfl <;> (unfold Safe; decide)
      · rcases h2 with rfl | rfl | rfl
        · cases hx
        · simp only [List.mem_singleton] at hx; subst hx; unfold Safe; decide
        · simp only [List.mem_singleton] at hx; subst hx; unfold Safe; decide
      · exact hd _ h3 x hx

theorem safe_lit (c : Char) (h : Safe c := by unfold Safe; decide) {s : Str} (hs : ∀ x ∈ s, Safe x) : ∀ x ∈ c :: s, Safe x := by
  intro x hx
  rcases List.mem_cons.mp hx with rfl | hx
  · exact h
  · exact hs x hx

theorem safe_app {s t : Str} (hs : ∀ x ∈ s, Safe x) (ht : ∀ x ∈ t, Safe x) : ∀ x ∈ s ++ t, Safe x := by
  intro x hx
  rcases List.mem_append.mp hx with hx | hx
  · exact hs x hx
  · exact ht x hx

theorem safe_nil : ∀ x ∈ ([] : Str), Safe x := by intro x hx; cases hx

mutual
theorem print_safe : ∀ j : J, Spelled j → ∀ x ∈ print j, Safe x
  | .null, _ => by simp only [print]; unfold Safe; decide
  | .bool true, _ => by simp only [print]; unfold Safe; decide
  | .bool false, _ => by simp only [print]; unfold Safe; decide
  | .num l, h => by simp only [Spelled] at h; simp only [print]; exact number_safe h
  | .str s, _ => by
    simp only [print]
    exact safe_lit '"' (hs := safe_app (escStr_safe s) (safe_lit '"' (hs := safe_nil)))
  | .arr l, h => by
    simp only [Spelled] at h
    simp only [print]
    exact safe_lit '[' (hs := safe_app (printL_safe l h) (safe_lit ']' (hs := safe_nil)))
  | .obj l, h => by
    simp only [Spelled] at h
    simp only [print]
    exact safe_lit '{' (hs := safe_app (printM_safe l h) (safe_lit '}' (hs := safe_nil)))
theorem printL_safe : ∀ l : List J, SpelledL l → ∀ x ∈ printL l, Safe x
  | [], _ => by simp only [printL]; exact safe_nil
  | [j], h => by
    simp only [SpelledL] at h
    simp only [printL]
    exact print_safe j h.1
  | j :: j' :: l, h => by
    have h' : Spelled j ∧ SpelledL (j' :: l) := by simpa [SpelledL] using h
    simp only [printL]
    exact safe_app (print_safe j h'.1) (safe_lit ',' (hs := printL_safe (j' :: l) h'.2))
theorem printM_safe : ∀ l : List (Str × J), SpelledM l → ∀ x ∈ printM l, Safe x
  | [], _ => by simp only [printM]; exact safe_nil
  | [(k, j)], h => by
    simp only [SpelledM] at h
    simp only [printM]
    exact safe_lit '"' (hs := safe_app (escStr_safe k) (safe_lit '"' (hs := safe_lit ':' (hs := print_safe j h.1))))
  | (k, j) :: m :: l, h => by
    have h' : Spelled j ∧ SpelledM (m :: l) := by simpa [SpelledM] using h
    simp only [printM]
    exact safe_lit '"' (hs := safe_app (escStr_safe k) (safe_lit '"' (hs := safe_lit ':' (hs :=
      safe_app (print_safe j h'.1) (safe_lit ',' (hs := printM_safe (m :: l) h'.2))))))
end

/-- **C95.** What is written can be put into a page: no `<`, `>`, `&`, no line or paragraph separators, no control
characters, no line ends. -/
theorem C95_safe (j : J) (h : Spelled j) : ∀ c ∈ print j, c ≠ '<' ∧ c ≠ '>' ∧ c ≠ '&' ∧ c ≠ '\u2028' ∧ c ≠ '\u2029' ∧
    0x20 ≤ c.toNat := print_safe j h

/-! ### Documents -/

theorem back_text_all {α : Type} {c : Codec α} {v w : α} (hb : Back c v w) (hn : Neat c v 10000) :
    ∃ text, marshal c v = some text ∧ readAll c text = some w := by
  obtain ⟨doc, h1, h2⟩ := hb.read
  obtain ⟨h3, h4⟩ := hn doc h1
  refine ⟨print doc, by unfold marshal; rw [h1]; rfl, ?_⟩
  unfold readAll
  rw [((C95_roundtrip doc h3).1 h4).1]
  exact h2

theorem back_text_body {α : Type} {c : Codec α} {v w : α} (hb : Back c v w) (hn : Neat c v 10000)
    (hnum : ∀ n, c.enc v ≠ some (.num n)) (rest : Str) :
    ∃ text, marshal c v = some text ∧ readBody c (text ++ rest) = some w := by
  obtain ⟨doc, h1, h2⟩ := hb.read
  obtain ⟨h3, h4⟩ := hn doc h1
  refine ⟨print doc, by unfold marshal; rw [h1]; rfl, ?_⟩
  unfold readBody
  rw [((C95_roundtrip doc h3).1 h4).2.2.2 (fun n hd => hnum n (by rw [← hd]; exact h1)) rest]
  exact h2

theorem neat_coords {short : ℚ → Str} (hs : Prints short) {n : Nat} {l : List ℚ} (h : ∀ q ∈ l, Float64 q) (k : Nat) :
    Neat (arrayC n (floatC short)) l (k + 1) := neat_array fun q hq => neat_float (hs.number q (h q hq)) k

theorem neat_texts (o : Option (List Str)) (k : Nat) : Neat (sliceC strC) o (k + 1) := neat_slice fun _ _ s _ => neat_str s k

theorem neat_text (o : Option Str) (k : Nat) : Neat (ptrC strC) o k := neat_ptr fun s _ => neat_str s k

theorem neat_vectorLayer (v : VectorLayer) (k : Nat) : Neat vectorLayerC v (k + 2) := by
  refine neat_iso (neat_struct (k := k + 1) ?_)
  exact ⟨neat_int _ _, neat_int _ _, neat_str _ _, neat_str _ _, neat_str _ _, neat_map fun _ _ e _ => neat_str _ _,
    neat_texts _ _, neat_str _ _, neat_uint _ _ _, neat_uint _ _ _, neat_texts _ _, trivial⟩

theorem neat_tileJSON {short : ℚ → Str} (hs : Prints short) {t : TileJSON} (h : t.Valid) : Neat (tileJSONC short) t 4 := by
  refine neat_iso (neat_struct (k := 3) ?_)
  unfold tileJSONR
  exact neatCons (neat_str _ _) <| neatCons (neat_text _ _) <| neatCons (neat_coords hs h.bounds.2 _) <|
    neatCons (neat_coords hs h.center.2 _) <| neatCons (neat_str _ _) <| neatCons (neat_uint _ _ _) <|
    neatCons (neat_uint _ _ _) <| neatCons (neat_text _ _) <| neatCons (neat_text _ _) <| neatCons (neat_str _ _) <|
    neatCons (neat_str _ _) <| neatCons (neat_texts _ _) <| neatCons (neat_texts _ _) <| neatCons (neat_texts _ _) <|
    neatCons (neat_str _ _) <| neatCons (neat_text _ _) <| neatCons (neat_text _ _) <|
    neatCons (neat_slice fun _ _ v _ => neat_vectorLayer v 0) <| neatCons (neat_str _ _) <| neatCons (neat_uint _ _ _) trivial

theorem struct_not_num {β : Type} (r : Rec β) (v : β) (n : Str) : (structC r).enc v ≠ some (.num n) := by
  simp only [structC]
  cases r.encAll v <;> simp

theorem slice_not_num {α : Type} (c : Codec α) (o : Option (List α)) (n : Str) : (sliceC c).enc o ≠ some (.num n) := by
  cases o with
  | none => simp [sliceC]
  | some l =>
    simp only [sliceC]
    cases encList c l <;> simp

/-- **C95.** `GetTileJSON` on a text: the text `json.Marshal` gives for a `TileJSON`, followed by anything, is read as that
`TileJSON` (empty lists of layers and tags as nil). -/
theorem C95_tilejson {short : ℚ → Str} (hs : Prints short) (t : TileJSON) (h : t.Valid) :
    ∃ text, marshal (tileJSONC short) t = some text ∧ ∀ rest, tileJSONBody short (text ++ rest) = (t.back, true) := by
  have key := back_text_body (back_tileJSON hs.back h).back ((neat_tileJSON hs h).mono (by norm_num))
    (fun n => struct_not_num _ _ n)
  obtain ⟨text, h1, -⟩ := key []
  refine ⟨text, h1, fun rest => ?_⟩
  obtain ⟨text', h2, h3⟩ := key rest
  rw [h1] at h2
  simp only [Option.some.injEq] at h2
  subst h2
  unfold tileJSONBody
  rw [h3]

theorem neat_tileset {short : ℚ → Str} (hs : Prints short) {t : Tileset} (h : t.Valid) : Neat (tilesetC short) t 2 := by
  refine neat_iso (neat_struct (k := 1) ?_)
  exact ⟨neat_str _ _, neat_coords hs h.center.2 0, neat_time _ _, neat_str _ _, neat_int _ _, neat_str _ _, neat_time _ _,
    neat_str _ _, neat_str _ _, neat_str _ _, trivial⟩

theorem neat_listStyle (t : ListStyle) : Neat listStyleC t 1 := by
  refine neat_iso (neat_struct (k := 0) ?_)
  exact ⟨neat_int _ _, neat_str _ _, neat_time _ _, neat_str _ _, neat_time _ _, neat_str _ _, trivial⟩

/-- **C95.** The pages of `ListTilesets` and `ListStyles` as texts. -/
theorem C95_pages {short : ℚ → Str} (hs : Prints short) :
    (∀ o : Option (List Tileset), (∀ l, o = some l → ∀ t ∈ l, t.Valid) → ∃ text,
      marshal (sliceC (tilesetC short)) o = some text ∧ ∀ rest, readBody (sliceC (tilesetC short)) (text ++ rest) = some o) ∧
    (∀ o : Option (List ListStyle), (∀ l, o = some l → ∀ t ∈ l, t.Valid) → ∃ text,
      marshal (sliceC listStyleC) o = some text ∧ ∀ rest, readBody (sliceC listStyleC) (text ++ rest) = some o) := by
  constructor
  · intro o h
    have key := back_text_body (back_slice_id fun l hl t ht => (back_tileset hs.back (h l hl t ht)).back)
      ((neat_slice (k := 2) fun l hl t ht => neat_tileset hs (h l hl t ht)).mono (by norm_num)) (fun n => slice_not_num _ _ n)
    obtain ⟨text, h1, -⟩ := key []
    refine ⟨text, h1, fun rest => ?_⟩
    obtain ⟨text', h2, h3⟩ := key rest
    rw [h1] at h2
    simp only [Option.some.injEq] at h2
    subst h2
    exact h3
  · intro o h
    have key := back_text_body (back_slice_id fun l hl t ht => (back_listStyle (h l hl t ht)).back)
      ((neat_slice (k := 1) fun l hl t ht => neat_listStyle t).mono (by norm_num)) (fun n => slice_not_num _ _ n)
    obtain ⟨text, h1, -⟩ := key []
    refine ⟨text, h1, fun rest => ?_⟩
    obtain ⟨text', h2, h3⟩ := key rest
    rw [h1] at h2
    simp only [Option.some.injEq] at h2
    subst h2
    exact h3

theorem neat_recipe (r : Recipe) : Neat recipeC r 3 := by
  refine neat_iso (neat_struct (k := 2) ?_)
  refine ⟨neat_int _ _, neat_map (k := 1) fun _ _ e _ => neat_iso (neat_struct (k := 0) ?_), trivial⟩
  exact ⟨neat_str _ _, neat_uint _ _ _, neat_uint _ _ _, trivial⟩

/-- **C95.** A recipe as a text. -/
theorem C95_recipe (r : Recipe) (h : r.Valid) : ∃ text, marshal recipeC r = some text ∧ readAll recipeC text = some r :=
  back_text_all (back_recipe h).back ((neat_recipe r).mono (by norm_num))

theorem neat_codes (o : Option (List Nat)) : Neat (sliceC (uintC 32)) o 1 := neat_slice fun _ _ n _ => neat_uint _ n 0

theorem neat_language (l : Language) : Neat languageC l 3 := by
  refine neat_iso (neat_struct (k := 2) ?_)
  refine ⟨neat_str _ _, neat_str _ _, neat_iso (neat_struct (k := 1) ?_), trivial⟩
  exact ⟨neat_codes _, neat_codes _, neat_codes _, neat_codes _, trivial⟩

/-- **C95.** `NewFontCoverage` on a text. -/
theorem C95_languages (o : Option (List (Option Language)))
    (h : ∀ l, o = some l → ∀ x, some x ∈ l → x.codepoints.Valid) :
    ∃ text, marshal (sliceC (ptrC languageC)) o = some text ∧ ∀ rest, fontCoverage (text ++ rest) = some o := by
  have hb : Back (sliceC (ptrC languageC)) o o := by
    refine back_slice_id (c := ptrC languageC) ?_
    intro l hl a ha
    cases a with
    | none => exact back_ptr_none _
    | some x => exact (back_ptr_some (back_language (h l hl x ha))).back
  have key := back_text_body hb ((neat_slice (k := 3) fun l hl t ht => neat_ptr fun x _ => neat_language x).mono (by norm_num))
    (fun n => slice_not_num _ _ n)
  obtain ⟨text, h1, -⟩ := key []
  refine ⟨text, h1, fun rest => ?_⟩
  obtain ⟨text', h2, h3⟩ := key rest
  rw [h1] at h2
  simp only [Option.some.injEq] at h2
  subst h2
  unfold readBody at h3
  unfold fontCoverage
  cases hd : decode (text ++ rest) with
  | none => rw [hd] at h3; cases h3
  | some j => rw [hd] at h3; exact h3

theorem neat_layerData {short : ℚ → Str} (hs : Prints short) {d : LayerData} (h : d.Valid) (hd : Shallow d) :
    Neat (layerDataC short) d 9998 := by
  refine neat_iso (neat_struct (k := 9997) ?_)
  refine ⟨neat_ptr fun o ho => (neat_slice (k := 9996) ?_), neat_ptr fun t ht => neat_iso (neat_struct (k := 9996) ?_), trivial⟩
  · intro l hl v hv
    subst hl
    refine neat_iso (neat_struct (k := 9995) ?_)
    refine ⟨neat_str _ _, neat_map (k := 9994) fun m hm e he => ?_, neat_str _ _, neat_int _ _, neat_int _ _, trivial⟩
    have := hd.fields l ho v hv m hm e he
    exact neat_any hs.number (((h.vectorLayers l ho v hv).fields m hm).2 e he) (by omega)
  · refine ⟨neat_int _ _, neat_slice (k := 9995) fun ls hls l hl => neat_iso (neat_struct (k := 9994) ?_), trivial⟩
    refine ⟨neat_str _ _, neat_int _ _, neat_str _ _, neat_int _ _,
      neat_slice (k := 9993) fun as has a ha => neat_iso (neat_struct (k := 9992) ?_), trivial⟩
    refine ⟨neat_str _ _, neat_int _ _, neat_str _ _, neat_slice (k := 9991) fun vs hvs x hx => ?_, trivial⟩
    have := hd.values t ht ls hls l hl as has a ha vs hvs x hx
    exact neat_any hs.number ((((h.tileStats t ht).layers ls hls l hl).attributes as has a ha).values vs hvs x hx) (by omega)

/-- **C95.** The `json` entry of the metadata table: the text written for layer data is never empty and is read back (into a
nil pointer) as that layer data. -/
theorem C95_layer_data {short : ℚ → Str} (hs : Prints short) (d : LayerData) (h : d.Valid) (hd : Shallow d) :
    ∃ text, marshal (layerDataC short) d = some text ∧ text ≠ [] ∧
      readAll (ptrC (layerDataC short)) text = some (some d.back) := by
  have hn : Neat (ptrC (layerDataC short)) (some d) 10000 :=
    neat_ptr fun v hv => by
      simp only [Option.some.injEq] at hv
      subst hv
      exact (neat_layerData hs h hd).mono (by norm_num)
  obtain ⟨text, h1, h2⟩ := back_text_all (back_ptr_some (back_layerData hs.back h)).back hn
  refine ⟨text, h1, ?_, h2⟩
  rintro rfl
  unfold readAll at h2
  simp [unmarshal, calls, value, skipWs] at h2

theorem neat_layerType (addr : Bool) (n : Int) (k : Nat) : Neat (layerTypeC addr) n k := by
  intro j hj
  simp only [layerTypeC] at hj
  split at hj
  · split at hj
    · cases hj
    · cases hx : Doc.layerTypeStrings[n.toNat]? with
      | none => rw [hx] at hj; cases hj
      | some s =>
        rw [hx] at hj
        simp only [Option.map_some, Option.some.injEq] at hj
        subst hj
        exact ⟨by simp [Spelled], by simp [depth]⟩
  · simp only [Option.some.injEq] at hj
    subst hj
    exact ⟨by simp only [Spelled]; exact number_itoa n, by simp [depth]⟩

/-- **C95.** Metadata marshalled through a pointer, as a text. -/
theorem C95_metadata {short : ℚ → Str} (hs : Prints short) (m : Metadata) (h : m.Valid)
    (hd : ∀ d, m.layerData = some d → Shallow d) (hr : nesting m.resFactor ≤ 9990) :
    ∃ text, marshal (metadataC short true) m = some text ∧ readAll (metadataC short true) text = some m.back := by
  refine back_text_all (back_metadata hs.back h true (fun _ => rfl)).back ((neat_iso (neat_struct (k := 9999) ?_)).mono (by norm_num))
  unfold metadataR
  refine neatCons (neat_str _ _) <| neatCons (neat_uint _ _ _) <| neatCons (neat_coords hs h.bounds.2 _) <|
    neatCons (neat_coords hs h.center.2 _) <| neatCons (neat_int _ _) <| neatCons (neat_int _ _) <| neatCons (neat_str _ _) <|
    neatCons (neat_str _ _) <| neatCons (neat_layerType _ _ _) <| neatCons (neat_str _ _) <|
    neatCons (neat_ptr fun d hdd => (neat_layerData hs (h.layerData d hdd) (hd d hdd)).mono (by norm_num)) <|
    neatCons (neat_str _ _) <| neatCons (neat_str _ _) <| neatCons (neat_str _ _) <| neatCons (neat_str _ _) <|
    neatCons (neat_any hs.number h.resFactor (by omega)) <|
    neatCons (neat_ptr fun l hl => neat_array fun n _ => neat_int n _) trivial

/-- **C95.** With the real JSON of the layer data, metadata stored with `UpdateMetadata` comes back from `GetMetadata` with
its layer data (as C44 says of the other fields): the same layers, fields, statistics, attributes and values. -/
theorem C95_metadata_table {short : ℚ → Str} (hs : Prints short) (rnd : ℚ → ℚ) (m : Mbtiles.Metadata LayerData)
    (hf : m.format ≤ 10) (ht : m.type = 0 ∨ m.type = 1) (hb : m.bounds.length = 4) (hc : m.center.length = 3)
    (hmin : IsI64 m.minZoom) (hmax : IsI64 m.maxZoom) (hsz : ∀ t, m.tileSize = some t → IsI64 t.1 ∧ IsI64 t.2)
    (hld : ∀ d, m.layerData = some d → d.Valid ∧ Shallow d) (hz : m.maxZoom ≠ 0)
    (old : Mbtiles.Store) (hold : old.pending = none) (entries rows : List (String × List Char)) (tiles : List Mbtiles.TileRow)
    (hmap : ∃ es, Mbtiles.toMap (layerDataText short) m = some es ∧ entries.Perm es)
    (hrows : rows.Perm (Mbtiles.updateMetadata old entries []).1.committed) :
    ∃ m', Mbtiles.getMetadata rnd (layerDataText short) rows tiles = .ok m' ∧
      m'.layerData = m.layerData.map LayerData.back ∧ m'.name = m.name ∧ m'.minZoom = m.minZoom ∧ m'.maxZoom = m.maxZoom := by
  have hj : ∀ d, m.layerData = some d → (layerDataText short).enc d ≠ [] ∧
      (layerDataText short).dec ((layerDataText short).enc d) = some (some d.back) := by
    intro d hd
    obtain ⟨text, h1, h2, h3⟩ := C95_layer_data hs d (hld d hd).1 (hld d hd).2
    have he : (layerDataText short).enc d = text := by
      simp only [layerDataText, h1, Option.getD_some]
    rw [he]
    exact ⟨h2, h3⟩
  obtain ⟨-, m', h1, h2, -, h3, h4, -, -, -, -, -, -, -, -, -, h5, -⟩ := Mbtiles.C44_roundtrip rnd (layerDataText short) m
    ⟨hf, ht, hb, hc, hmin, hmax, hsz, fun d hd => ⟨(hj d hd).1, _, (hj d hd).2⟩⟩ hz old hold entries rows tiles hmap hrows
  refine ⟨m', h1, ?_, h2, h3, h4⟩
  rw [h5]
  cases hd : m.layerData with
  | none => rfl
  | some d => simp only [Option.bind_some, Option.map_some, (hj d hd).2, Option.getD_some]

/-- **C95.** A `json` row that is `null` gives no layer data, one that is an empty object gives empty layer data, and one that
is not JSON, or an array or a text, is an error. -/
theorem C95_json_row (short : ℚ → Str) (text : Str) :
    (JsonText text .null → (layerDataText short).dec text = some none) ∧
    (JsonText text (.obj []) → (layerDataText short).dec text = some (some ⟨none, none⟩)) ∧
    ((¬ ∃ j, JsonText text j) → (layerDataText short).dec text = none) ∧
    (∀ l, JsonText text (.arr l) → (layerDataText short).dec text = none) ∧
    (∀ s, JsonText text (.str s) → (layerDataText short).dec text = none) := by
  have key : ∀ j, unmarshal text = some j → (layerDataText short).dec text = (ptrC (layerDataC short)).read j := by
    intro j h
    simp only [layerDataText, readAll, h]
  refine ⟨fun h => ?_, fun h => ?_, fun h => ?_, fun l h => ?_, fun s h => ?_⟩
  · rw [key _ ((C95_reads _ _).mpr ⟨h, by simp [depth]⟩)]
    rfl
  · rw [key _ ((C95_reads _ _).mpr ⟨h, by simp [depth, depthM]⟩)]
    rfl
  · cases hu : unmarshal text with
    | none => simp only [layerDataText, readAll, hu]
    | some j => exact absurd ⟨j, ((C95_reads _ _).mp hu).1⟩ h
  · cases hu : unmarshal text with
    | none => simp only [layerDataText, readAll, hu]
    | some j =>
      rw [key _ hu, C95_unambiguous _ _ _ ((C95_reads _ _).mp hu).1 h]
      rfl
  · cases hu : unmarshal text with
    | none => simp only [layerDataText, readAll, hu]
    | some j =>
      rw [key _ hu, C95_unambiguous _ _ _ ((C95_reads _ _).mp hu).1 h]
      rfl

/-! ### Witnesses -/

theorem digitsPad_digits (p n : Nat) (hp : 0 < p) : Digits (digitsPad p n) := by
  refine digits_iff.mpr ⟨?_, fun c hc => digitsPad_isDigit _ _ c hc⟩
  intro h
  have := digitsPad_length p n
  rw [h] at this
  simp at this
  omega

/-- Printing all the decimals meets the hypothesis of the theorems. -/
theorem prints_allDecimals : Prints allDecimals := by
  refine ⟨shortest_allDecimals, fun q _ => ?_⟩
  unfold allDecimals formatF
  simp only
  generalize (F64.rne (|q| * ((10 ^ (Nat.log2 q.den + 1) : ℕ) : ℚ))).toNat = n
  generalize Nat.log2 q.den = p
  generalize 10 ^ (p + 1) = z
  refine ⟨if q < 0 then ['-'] else [], Nat.toDigits 10 (n / z), '.' :: digitsPad (p + 1) (n % z), [], ?_, number_toDigits _,
    Or.inr ⟨_, digitsPad_digits _ _ (Nat.succ_pos p), rfl⟩, Or.inl rfl, ?_⟩
  · split
    · exact Or.inr rfl
    · exact Or.inl rfl
  · simp only [List.append_nil, List.append_assoc]
    rfl

/-- A text with white space, escapes, a surrogate pair and an exponent. -/
example : (unmarshal " {\"a\\u0062\" : [1.5e-3 , true,\t\"\\ud83d\\ude00\\n\"] }\n".toList).map print =
    some "{\"ab\":[1.5e-3,true,\"😀\\n\"]}".toList := by decide +kernel

/-- Leading zeros, trailing commas, single quotes, unfinished texts and text after the value are refused. -/
example : unmarshal "01".toList = none ∧ unmarshal "[1,]".toList = none ∧ unmarshal "{'a':1}".toList = none ∧
    unmarshal "{\"a\":".toList = none ∧ unmarshal "1 2".toList = none ∧ unmarshal "".toList = none ∧ unmarshal "-".toList = none ∧
    unmarshal "\"\n\"".toList = none := by decide +kernel

/-- The decoder does not look at what follows. -/
example : (decode "{} x".toList).map print = some "{}".toList := by decide +kernel

/-- What is written for a text with a tag and a quotation mark. -/
example : print (.str "<a href=\"x\">".toList) = "\"\\u003ca href=\\\"x\\\"\\u003e\"".toList := by decide +kernel

/-- The layer data of the demonstration metadata is shallow. -/
theorem demoMeta_shallow : ∀ d, demoMeta.layerData = some d → Shallow d := by
  intro d hd
  cases hd
  refine ⟨?_, ?_⟩
  · intro l hl v hv m hm e he
    cases hl
    simp only [List.mem_singleton] at hv
    subst hv
    cases hm
    simp only [List.mem_cons, List.not_mem_nil, or_false] at he
    rcases he with rfl | rfl <;> simp [nesting, nestingL]
  · intro t ht ls hls l hl as has a ha vs hvs x hx
    cases ht
    cases hls
    simp only [List.mem_singleton] at hl
    subst hl
    cases has
    simp only [List.mem_singleton] at ha
    subst ha
    cases hvs
    simp only [List.mem_cons, List.not_mem_nil, or_false] at hx
    rcases hx with rfl | rfl <;> simp [nesting]

/-- The hypotheses of the round trips of metadata and layer data are met. -/
example : ∃ text, marshal (metadataC allDecimals true) demoMeta = some text ∧
    readAll (metadataC allDecimals true) text = some demoMeta.back :=
  C95_metadata prints_allDecimals demoMeta demoMeta_valid demoMeta_shallow (by simp [demoMeta, nesting])

example : ∀ d, demoMeta.layerData = some d → ∃ text, marshal (layerDataC allDecimals) d = some text ∧ text ≠ [] ∧
    readAll (ptrC (layerDataC allDecimals)) text = some (some d.back) :=
  fun d hd => C95_layer_data prints_allDecimals d (demoMeta_valid.layerData d hd) (demoMeta_shallow d hd)

end Verif.JText
