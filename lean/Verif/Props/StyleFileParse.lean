import Verif.Props.StyleFile
import Verif.Proof.MbtilesMeta

/-! # C16: which names are accepted, and what they mean -/
namespace Verif.Regex

theorem starM_complete (p : Char → Bool) (k : List Char → Option Caps) : ∀ (a r : List Char), (∀ c ∈ a, p c = true) →
    (k r).isSome = true → (starM p (a ++ r) k).isSome = true
  | [], r, _, hk => by
    cases r with
    | nil => simpa [starM] using hk
    | cons c s =>
      simp only [List.nil_append, starM]
      by_cases hc : p c = true
      · rw [if_pos hc]
        cases starM p s k with
        | some x => rfl
        | none => exact hk
      · rw [if_neg hc]; exact hk
  | c :: a, r, h, hk => by
    simp only [List.cons_append, starM]
    rw [if_pos (h c List.mem_cons_self)]
    have := starM_complete p k a r (fun d hd => h d (List.mem_cons_of_mem _ hd)) hk
    revert this
    cases starM p (a ++ r) k with
    | some x => intro _; rfl
    | none => intro h; cases h

/-- backtracking finds a match when there is one -/
theorem m_complete (r : Re) : ∀ (a rest : List Char) (caps cap : Caps) (k : List Char → Caps → Option Caps),
    r.Lang a rest caps → (k rest (caps ++ cap)).isSome = true → (r.m (a ++ rest) cap k).isSome = true := by
  induction r with
  | cls p =>
    rintro a rest caps cap k ⟨c, rfl, hp, rfl⟩ hk
    simpa [Re.m, hp] using hk
  | star p =>
    rintro a rest caps cap k ⟨hp, rfl⟩ hk
    exact starM_complete p _ a rest hp (by simpa using hk)
  | plus p =>
    rintro a rest caps cap k ⟨hn, hp, rfl⟩ hk
    cases a with
    | nil => exact absurd rfl hn
    | cons c a =>
      simp only [List.cons_append, Re.m]
      rw [if_pos (hp c List.mem_cons_self)]
      exact starM_complete p _ a rest (fun d hd => hp d (List.mem_cons_of_mem _ hd)) (by simpa using hk)
  | opt r ih =>
    rintro a rest caps cap k (h | ⟨rfl, rfl⟩) hk
    · have := ih a rest caps cap k h hk
      simp only [Re.m]
      revert this
      cases r.m (a ++ rest) cap k with
      | some x => intro _; rfl
      | none => intro h; cases h
    · simp only [Re.m, List.nil_append]
      cases r.m rest cap k with
      | some x => rfl
      | none => simpa using hk
  | seq r s ihr ihs =>
    rintro a rest caps cap k ⟨x, y, c1, c2, rfl, h1, h2, rfl⟩ hk
    simp only [Re.m, List.append_assoc]
    refine ihr x (y ++ rest) c1 cap _ h1 ?_
    exact ihs y rest c2 (c1 ++ cap) k h2 (by simpa using hk)
  | group i r ih =>
    rintro a rest caps cap k ⟨c, h, rfl⟩ hk
    simp only [Re.m]
    refine ih a rest c cap _ h ?_
    rw [take_run]
    simpa using hk
  | eos =>
    rintro a rest caps cap k ⟨rfl, rfl, rfl⟩ hk
    simpa [Re.m] using hk

/-- the search finds the leftmost match: there is no match that starts earlier -/
theorem find_leftmost (r : Re) : ∀ (s : List Char) (x : Caps), r.find s = some x →
    ∃ pre a post caps, s = pre ++ a ++ post ∧ r.Lang a post caps ∧ x = (0, a) :: caps ∧
      ∀ pre' a' post' caps', s = pre' ++ a' ++ post' → r.Lang a' post' caps' → pre.length ≤ pre'.length
  | [], x, h => by
    obtain ⟨pre, a, post, caps, e, hl, hx⟩ := find_sound r [] x h
    refine ⟨pre, a, post, caps, e, hl, hx, ?_⟩
    intro pre' _ _ _ _ _
    have : pre = [] := by
      cases pre with
      | nil => rfl
      | cons c p => simp at e
    simp [this]
  | c :: s, x, h => by
    simp only [Re.find] at h
    split at h
    · rename_i y hy
      cases h
      obtain ⟨a, rest, caps, e, hl, hk⟩ := m_sound r _ _ _ _ hy
      refine ⟨[], a, rest, caps, by simpa using e, hl, ?_, fun _ _ _ _ _ _ => Nat.zero_le _⟩
      rw [e, take_run] at hk
      simpa using hk.symm
    · rename_i hy
      obtain ⟨pre, a, post, caps, e, hl, hx, hmin⟩ := find_leftmost r s x h
      refine ⟨c :: pre, a, post, caps, by simp [e], hl, hx, ?_⟩
      intro pre' a' post' caps' e' hl'
      cases pre' with
      | nil =>
        exfalso
        have := m_complete r a' post' caps' [] (fun s' cap => some ((0, (c :: s).take ((c :: s).length - s'.length)) :: cap)) hl' rfl
        rw [← List.nil_append a', ← e', hy] at this
        cases this
      | cons d p =>
        simp only [List.cons_append, List.cons.injEq] at e'
        have := hmin p a' post' caps' e'.2 hl'
        simp only [List.length_cons]; omega

theorem find_none (r : Re) : ∀ (s : List Char), r.find s = none → ∀ pre a post caps, s = pre ++ a ++ post → ¬ r.Lang a post caps
  | [], h, pre, a, post, caps, e, hl => by
    simp only [Re.find] at h
    have e1 : pre = [] ∧ a = [] ∧ post = [] := by
      have := e.symm
      simp only [List.append_eq_nil_iff] at this
      exact ⟨this.1.1, this.1.2, this.2⟩
    obtain ⟨rfl, rfl, rfl⟩ := e1
    have := m_complete r [] [] caps [] (fun s' c => some ((0, [].take (0 - s'.length)) :: c)) hl rfl
    rw [List.append_nil, h] at this
    cases this
  | c :: s, h, pre, a, post, caps, e, hl => by
    simp only [Re.find] at h
    split at h
    · cases h
    · rename_i hy
      cases pre with
      | nil =>
        have := m_complete r a post caps [] (fun s' cap => some ((0, (c :: s).take ((c :: s).length - s'.length)) :: cap)) hl rfl
        rw [← List.nil_append a, ← e, hy] at this
        cases this
      | cons d p =>
        simp only [List.cons_append, List.cons.injEq] at e
        exact find_none r s h p a post caps e.2 hl

end Verif.Regex

namespace Verif.StyleFile
open Verif.Go Verif.Regex Verif.Mbtiles

/-- the text of a pixel ratio with these digits -/
def ratioText : Option (List Char) → List Char
  | none => []
  | some d => '@' :: d ++ ['x']

/-- The name `s` read as text before the name (`pre`), type, ratio digits (`none`: no `@…x`) and extension. -/
structure Reads (s pre type : List Char) (ratio : Option (List Char)) (ext : List Char) : Prop where
  eq : s = pre ++ type ++ ratioText ratio ++ '.' :: ext
  type_ne : type ≠ []
  type_at : '@' ∉ type
  digits : ∀ d ∈ ratio, d ≠ [] ∧ ∀ c ∈ d, c.isDigit = true
  ext_ne : ext ≠ []
  ext_alnum : ∀ c ∈ ext, c.isAlphanum = true

/-- The pixel ratio digits mean: their number, or 1 when there are none or it is not an int64. -/
def ratioOf : Option (List Char) → Int
  | none => 1
  | some d => if digitsVal d < 9223372036854775808 then digitsVal d else 1

/-- the captures of a ratio -/
def ratioCaps : Option (List Char) → Caps
  | none => []
  | some d => [(2, '@' :: d ++ ['x']), (3, d)]

/-- the captures of a reading -/
def capsOf (type : List Char) (ratio : Option (List Char)) (ext : List Char) : Caps :=
  (4, '.' :: ext) :: ratioCaps ratio ++ [(1, type)]

theorem lang_reads (a post : List Char) (caps : Caps) :
    reSubFile.Lang a post caps ↔ post = [] ∧ ∃ type ratio ext, Reads a [] type ratio ext ∧ caps = capsOf type ratio ext := by
  constructor
  · rintro ⟨t, y, c1, c2, rfl, ⟨c3, ⟨tn, ta, rfl⟩, rfl⟩, ⟨u, v, c4, c5, rfl, hu, hv, rfl⟩, rfl⟩
    obtain ⟨g, h, c6, c7, rfl, ⟨c8, ⟨g1, g2, c9, c10, rfl, ⟨ch, rfl, hch, rfl⟩, ⟨en, ea, rfl⟩, rfl⟩, rfl⟩, ⟨rfl, rfl, rfl⟩, rfl⟩ := hv
    simp only [beq_iff_eq] at hch
    subst hch
    refine ⟨rfl, t, ?_⟩
    have ta' : '@' ∉ t := fun hm => by simpa using ta _ hm
    have ea' : ∀ c ∈ g2, c.isAlphanum = true := fun c hc => (isAlnum_eq c) ▸ ea c hc
    rcases hu with ⟨c11, ⟨w, z, c12, c13, rfl, ⟨ch, rfl, hch, rfl⟩, ⟨d, z2, c14, c15, rfl, ⟨c16, ⟨dn, da, rfl⟩, rfl⟩, ⟨cx, rfl, hcx, rfl⟩, rfl⟩, rfl⟩, rfl⟩ | ⟨rfl, rfl⟩
    · simp only [beq_iff_eq] at hch hcx
      subst hch hcx
      refine ⟨some d, g2, ⟨by simp [ratioText], tn, ta', ?_, en, ea'⟩, ?_⟩
      · rintro d' ⟨⟩
        exact ⟨dn, fun c hc => (isDig_iff c) ▸ da c hc⟩
      · simp [capsOf, ratioCaps]
    · refine ⟨none, g2, ⟨by simp [ratioText], tn, ta', by simp, en, ea'⟩, ?_⟩
      simp [capsOf, ratioCaps]
  · rintro ⟨rfl, type, ratio, ext, ⟨rfl, tn, ta, hd, en, ea⟩, rfl⟩
    refine ⟨type, ratioText ratio ++ '.' :: ext, [(1, type)],
      (4, '.' :: ext) :: ratioCaps ratio, by simp,
      ⟨[], ⟨tn, fun c hc => ?_, rfl⟩, rfl⟩, ?_, by simp [capsOf, ratioCaps]⟩
    · simp only [bne_iff_ne, ne_eq]
      rintro rfl
      exact ta hc
    · refine ⟨_, '.' :: ext, ratioCaps ratio, [(4, '.' :: ext)], rfl, ?_, ?_, by simp⟩
      · cases ratio with
        | none => exact .inr ⟨rfl, rfl⟩
        | some d =>
          obtain ⟨dn, da⟩ := hd d rfl
          refine .inl ⟨[(3, d)], ⟨['@'], d ++ ['x'], [], [(3, d)], by simp [ratioText], ⟨'@', rfl, by simp, rfl⟩, ?_, by simp⟩, rfl⟩
          exact ⟨d, ['x'], [(3, d)], [], rfl, ⟨[], ⟨dn, fun c hc => (isDig_iff c).symm ▸ da c hc, rfl⟩, rfl⟩, ⟨'x', rfl, by simp, rfl⟩, by simp⟩
      · refine ⟨'.' :: ext, [], [(4, '.' :: ext)], [], by simp, ⟨[], ⟨['.'], ext, [], [], rfl, ⟨'.', rfl, by simp, rfl⟩, ⟨en, fun c hc => (isAlnum_eq c).symm ▸ ea c hc, rfl⟩, rfl⟩, rfl⟩, ⟨rfl, rfl, rfl⟩, by simp⟩

theorem Reads.shift {s pre type : List Char} {ratio : Option (List Char)} {ext : List Char} :
    Reads s pre type ratio ext ↔ ∃ a, s = pre ++ a ∧ Reads a [] type ratio ext := by
  constructor
  · rintro ⟨rfl, h1, h2, h3, h4, h5⟩
    exact ⟨_, by simp only [List.append_assoc]; rfl, ⟨by simp, h1, h2, h3, h4, h5⟩⟩
  · rintro ⟨a, rfl, ⟨rfl, h1, h2, h3, h4, h5⟩⟩
    exact ⟨by simp, h1, h2, h3, h4, h5⟩

theorem alnum_dot {e : List Char} (h : ∀ c ∈ e, c.isAlphanum = true) : '.' ∉ e := fun hm => by
  have := h _ hm
  revert this; decide

theorem split_last {x y e f : List Char} (he : '.' ∉ e) (hf : '.' ∉ f) (h : x ++ '.' :: e = y ++ '.' :: f) : x = y ∧ e = f := by
  rcases List.append_eq_append_iff.1 h with ⟨as, h1, h2⟩ | ⟨bs, h1, h2⟩
  · cases as with
    | nil => simp only [List.append_nil] at h1; simp only [List.nil_append, List.cons.injEq, true_and] at h2; exact ⟨h1.symm, h2⟩
    | cons c as =>
      simp only [List.cons_append, List.cons.injEq] at h2
      exact absurd (by rw [h2.2]; simp) he
  · cases bs with
    | nil => simp only [List.append_nil] at h1; simp only [List.nil_append, List.cons.injEq, true_and] at h2; exact ⟨h1, h2.symm⟩
    | cons c bs =>
      simp only [List.cons_append, List.cons.injEq] at h2
      exact absurd (by rw [h2.2]; simp) hf

theorem split_first {x y : List Char} {e f : Option (List Char)} (hx : '@' ∉ x) (hy : '@' ∉ y)
    (h : x ++ ratioText e = y ++ ratioText f) :
    x = y ∧ e = f := by
  have key : ∀ (x y : List Char) (e f : Option (List Char)), '@' ∉ x → '@' ∉ y →
      ∀ as, y = x ++ as → ratioText e = as ++ ratioText f →
      x = y ∧ e = f := by
    intro x y e f hx hy as h1 h2
    cases as with
    | nil =>
      simp only [List.append_nil] at h1
      refine ⟨h1.symm, ?_⟩
      cases e <;> cases f <;> simp [ratioText] at h2 ⊢
      exact h2
    | cons c as =>
      cases e with
      | none => simp [ratioText] at h2
      | some d =>
        simp only [ratioText, List.cons_append, List.cons.injEq] at h2
        exact absurd (by rw [h1, ← h2.1]; simp) hy
  rcases List.append_eq_append_iff.1 h with ⟨as, h1, h2⟩ | ⟨bs, h1, h2⟩
  · exact key x y e f hx hy as h1 h2
  · obtain ⟨e1, e2⟩ := key y x f e hy hx bs h1 h2
    exact ⟨e1.symm, e2.symm⟩

/-- a name has one reading from each place -/
theorem Reads.unique {s pre pre' t t' e e' : List Char} {r r' : Option (List Char)} (h : Reads s pre t r e) (h' : Reads s pre' t' r' e')
    (hl : pre.length = pre'.length) : pre = pre' ∧ t = t' ∧ r = r' ∧ e = e' := by
  have h0 := h.eq.symm.trans h'.eq
  obtain ⟨h1, h2⟩ := split_last (alnum_dot h.ext_alnum) (alnum_dot h'.ext_alnum) h0
  simp only [List.append_assoc] at h1
  obtain ⟨h3, h4⟩ := List.append_inj h1 hl
  obtain ⟨h5, h6⟩ := split_first h.type_at h'.type_at h4
  exact ⟨h3, h5, h6, h2⟩

theorem ratio_value (d : List Char) (hn : d ≠ []) (hd : ∀ c ∈ d, c.isDigit = true) :
    (match parseInt d 10 with | .ok i => i | .error _ => 1) = ratioOf (some d) := by
  cases d with
  | nil => exact absurd rfl hn
  | cons c d =>
    have hc := hd c List.mem_cons_self
    obtain ⟨_, _, _, _, _, hm, hp, _⟩ := digit_props hc
    have hs : parseInt (c :: d) 10 = if digitsVal (c :: d) < 9223372036854775808 then .ok (digitsVal (c :: d) : Int)
        else .error (.range, 9223372036854775807) := by
      unfold parseInt
      rw [if_neg (by simp)]
      split
      rename_i neg ds heq
      split at heq
      · rename_i h2; simp at h2; exact absurd h2.1 hp
      · rename_i h2; simp at h2; exact absurd h2.1 hm
      · simp at heq
        obtain ⟨rfl, rfl⟩ := heq
        simp only [parseUint_10 _ hn hd]
        generalize digitsVal (c :: d) = n
        by_cases h1 : n < 18446744073709551616
        · rw [if_pos h1]
          by_cases h2 : n < 9223372036854775808
          · rw [if_pos h2]
            simp only [Bool.false_eq_true, not_false_eq_true, true_and, ge_iff_le, false_and, if_false]
            rw [if_neg (by omega)]
          · rw [if_neg h2]
            simp only [Bool.false_eq_true, not_false_eq_true, true_and, ge_iff_le, false_and, if_false]
            rw [if_pos (by omega)]
        · rw [if_neg h1, if_neg (by omega)]
          simp only [Bool.false_eq_true, not_false_eq_true, true_and, ge_iff_le, false_and, if_false]
          rw [if_pos (by omega)]
    rw [hs]
    show _ = if digitsVal (c :: d) < 9223372036854775808 then (digitsVal (c :: d) : Int) else 1
    generalize digitsVal (c :: d) = n
    by_cases h2 : n < 9223372036854775808
    · simp [h2]
    · simp [h2]

theorem parse_of_find {s : List Char} {t e : List Char} {r : Option (List Char)} {a : List Char}
    (hd : ∀ d ∈ r, d ≠ [] ∧ ∀ c ∈ d, c.isDigit = true) (h : reSubFile.find s = some ((0, a) :: capsOf t r e)) :
    parseStyleFile s = some ⟨toLower t, '.' :: toLower e, ratioOf r⟩ := by
  unfold parseStyleFile
  rw [h]
  have g1 : Caps.get ((0, a) :: capsOf t r e) 1 = t := by cases r <;> simp [Caps.get, capsOf, ratioCaps]
  have g4 : Caps.get ((0, a) :: capsOf t r e) 4 = '.' :: e := by cases r <;> simp [Caps.get, capsOf, ratioCaps]
  have g3 : Caps.get ((0, a) :: capsOf t r e) 3 = r.getD [] := by cases r <;> simp [Caps.get, capsOf, ratioCaps]
  have l4 : toLower ('.' :: e) = '.' :: toLower e := by
    unfold toLower
    rw [List.map_cons]
    congr 1
  simp only [g1, g3, g4, l4]
  congr 2
  cases r with
  | none => simp [ratioOf]
  | some d =>
    obtain ⟨dn, da⟩ := hd d rfl
    simp only [Option.getD_some]
    rw [if_pos dn]
    exact ratio_value d dn da

/-- C16: a name is refused exactly when it has no reading. -/
theorem C16_refused (s : List Char) : parseStyleFile s = none ↔ ¬ ∃ pre t r e, Reads s pre t r e := by
  constructor
  · rintro h ⟨pre, t, r, e, hr⟩
    cases hf : reSubFile.find s with
    | some m => unfold parseStyleFile at h; rw [hf] at h; cases h
    | none =>
      obtain ⟨a, ea, ha⟩ := Reads.shift.1 hr
      refine find_none _ s hf pre a [] (capsOf t r e) (by simpa using ea) ?_
      rw [lang_reads]
      exact ⟨rfl, t, r, e, ha, rfl⟩
  · intro h
    cases hf : reSubFile.find s with
    | none => unfold parseStyleFile; rw [hf]
    | some m =>
      obtain ⟨pre, a, post, caps, e, hl, -⟩ := find_sound _ s m hf
      rw [lang_reads] at hl
      obtain ⟨rfl, t, r, e', ha, -⟩ := hl
      exact absurd ⟨pre, t, r, e', Reads.shift.2 ⟨a, by simpa using e, ha⟩⟩ h

/-- C16: an accepted name means its reading from the earliest place: type and extension in lower case, the number as pixel
ratio. -/
theorem C16_accepted (s : List Char) (f : StyleFile) : parseStyleFile s = some f ↔ ∃ pre t r e, Reads s pre t r e ∧
    (∀ pre' t' r' e', Reads s pre' t' r' e' → pre.length ≤ pre'.length) ∧ f = ⟨toLower t, '.' :: toLower e, ratioOf r⟩ := by
  have fwd : ∀ f, parseStyleFile s = some f → ∃ pre t r e, Reads s pre t r e ∧
      (∀ pre' t' r' e', Reads s pre' t' r' e' → pre.length ≤ pre'.length) ∧ f = ⟨toLower t, '.' :: toLower e, ratioOf r⟩ := by
    intro f h
    cases hf : reSubFile.find s with
    | none => unfold parseStyleFile at h; rw [hf] at h; cases h
    | some m =>
      obtain ⟨pre, a, post, caps, e, hl, hx, hmin⟩ := find_leftmost _ s m hf
      rw [lang_reads] at hl
      obtain ⟨rfl, t, r, e', ha, rfl⟩ := hl
      refine ⟨pre, t, r, e', Reads.shift.2 ⟨a, by simpa using e, ha⟩, ?_, ?_⟩
      · intro pre' t' r' e'' hr
        obtain ⟨a', ea, ha'⟩ := Reads.shift.1 hr
        exact hmin pre' a' [] _ (by simpa using ea) ((lang_reads _ _ _).2 ⟨rfl, t', r', e'', ha', rfl⟩)
      · have := parse_of_find (s := s) ha.digits (hx ▸ hf)
        rw [h] at this
        exact Option.some.inj this
  constructor
  · exact fwd f
  · rintro ⟨pre, t, r, e, hr, hmin, rfl⟩
    cases hp : parseStyleFile s with
    | none => exact absurd ⟨pre, t, r, e, hr⟩ ((C16_refused s).1 hp)
    | some g =>
      obtain ⟨pre', t', r', e', hr', hmin', rfl⟩ := fwd g hp
      obtain ⟨rfl, rfl, rfl, rfl⟩ := hr.unique hr' (le_antisymm (hmin _ _ _ _ hr') (hmin' _ _ _ _ hr))
      rfl

theorem lower_ascii {c : Char} (h : c.toNat < 128) : (lower c).toNat < 128 ∧ ¬ ('A' ≤ lower c ∧ lower c ≤ 'Z') := by
  have key : ∀ n < 128, (lower (Char.ofNat n)).toNat < 128 ∧ ¬ ('A' ≤ lower (Char.ofNat n) ∧ lower (Char.ofNat n) ≤ 'Z') := by decide +kernel
  have := key c.toNat h
  rwa [Char.ofNat_toNat] at this

theorem lower_alnum {c : Char} (h : c.isAlphanum = true) : (lower c).isAlphanum = true ∧ c.toNat < 128 := by
  have h128 : c.toNat < 128 := by
    simp only [Char.isAlphanum, Char.isAlpha, Char.isUpper, Char.isLower, Char.isDigit, Bool.or_eq_true, Bool.and_eq_true, decide_eq_true_eq,
      ge_iff_le, UInt32.le_iff_toNat_le] at h
    have e : c.toNat = c.val.toNat := rfl
    rw [e]
    generalize c.val = v at h
    have e1 : 'A'.val.toNat = 65 := rfl
    have e2 : 'Z'.val.toNat = 90 := rfl
    have e3 : 'a'.val.toNat = 97 := rfl
    have e4 : 'z'.val.toNat = 122 := rfl
    have e5 : '0'.val.toNat = 48 := rfl
    have e6 : '9'.val.toNat = 57 := rfl
    omega
  refine ⟨?_, h128⟩
  have key : ∀ n < 128, (Char.ofNat n).isAlphanum = true → (lower (Char.ofNat n)).isAlphanum = true := by decide +kernel
  have := key c.toNat h128
  rw [Char.ofNat_toNat] at this
  exact this h

theorem lower_at {c : Char} (h : c.toNat < 128) (hc : c ≠ '@') : lower c ≠ '@' := by
  have key : ∀ n < 128, Char.ofNat n ≠ '@' → lower (Char.ofNat n) ≠ '@' := by decide +kernel
  have := key c.toNat h
  rw [Char.ofNat_toNat] at this
  exact this hc

/-- C16: a name that was accepted is printed as a name that means the same file, unless it asked for ratio 0. -/
theorem C16_normal (s : List Char) (hs : ∀ c ∈ s, c.toNat < 128) (f : StyleFile) (h : parseStyleFile s = some f) (h0 : f.pixelRatio ≠ 0) :
    parseStyleFile (toStr f) = some f := by
  obtain ⟨pre, t, r, e, hr, -, rfl⟩ := (C16_accepted s f).1 h
  apply C16_styleFile_roundtrip
  have ht : ∀ c ∈ t, c.toNat < 128 := fun c hc => hs c (by rw [hr.eq]; simp [hc])
  refine ⟨?_, ?_, ?_, ⟨toLower e, ?_, rfl, ?_, ?_⟩, ?_⟩
  · simpa [toLower] using hr.type_ne
  · intro hm
    simp only [toLower, List.mem_map] at hm
    obtain ⟨c, hc, ec⟩ := hm
    exact lower_at (ht c hc) (fun e => hr.type_at (e ▸ hc)) ec
  · intro c hc
    simp only [toLower, List.mem_map] at hc
    obtain ⟨d, hd, rfl⟩ := hc
    exact lower_ascii (ht d hd)
  · simpa [toLower] using hr.ext_ne
  · intro c hc
    simp only [toLower, List.mem_map] at hc
    obtain ⟨d, hd, rfl⟩ := hc
    exact (lower_alnum (hr.ext_alnum d hd)).1
  · intro c hc
    simp only [toLower, List.mem_map] at hc
    obtain ⟨d, hd, rfl⟩ := hc
    exact lower_ascii (lower_alnum (hr.ext_alnum d hd)).2
  · simp only at h0 ⊢
    cases r with
    | none => exact .inl rfl
    | some d =>
      unfold ratioOf at h0 ⊢
      simp only at h0 ⊢
      generalize digitsVal d = n at *
      by_cases h1 : n < 9223372036854775808
      · rw [if_pos h1] at h0 ⊢
        omega
      · rw [if_neg h1]
        exact .inl rfl

/-- C16: `UnmarshalText` of a text that is no name leaves the value as it was and reports; of a name it stores what
`ParseStyleFile` gives; a value that was marshalled is restored over any earlier one. -/
theorem C16_text (f g : StyleFile) (s : List Char) :
    (parseStyleFile s = none → unmarshalText g s = (g, true)) ∧
    (∀ f', parseStyleFile s = some f' → unmarshalText g s = (f', false)) ∧
    (WellFormed f → unmarshalText g (marshalText f) = (f, false)) := by
  refine ⟨fun h => by simp [unmarshalText, h], fun f' h => by simp [unmarshalText, h], fun h => ?_⟩
  unfold unmarshalText marshalText
  rw [C16_styleFile_roundtrip f h]

/-- cases that meet the hypotheses -/
theorem C16_parse_example : parseStyleFile "dir@a.B@12x.PNG".toList = some ⟨"a.b".toList, ".png".toList, 12⟩ ∧
    parseStyleFile "@2x".toList = none ∧ parseStyleFile "a@99999999999999999999x.png".toList = some ⟨"a".toList, ".png".toList, 1⟩ := by
  decide +kernel

end Verif.StyleFile
