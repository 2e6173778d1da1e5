import Verif.Proof.StyleColor
import Verif.Proof.Float64

/-!
# C52, C53, C62: colour strings

`strToColor F64.rnd s 255` is `strToColor(s, defaultColorAlpha)` on the string `s`.
-/
namespace Verif.Style
open Verif.Go Verif.Regex

/-! ## C52 hex colours -/

/-- `#rrggbb`, in either letter case, is exactly the three bytes, opaque. -/
theorem C52_hex6 (rnd : ℚ → ℚ) (x1 x2 x3 x4 x5 x6 : Char) (a1 a2 a3 a4 a5 a6 alpha : Nat) (h1 : HexDigit x1 a1)
    (h2 : HexDigit x2 a2) (h3 : HexDigit x3 a3) (h4 : HexDigit x4 a4) (h5 : HexDigit x5 a5) (h6 : HexDigit x6 a6) :
    strToColor rnd ['#', x1, x2, x3, x4, x5, x6] alpha =
      .ok (.rgba (16 * a1 + a2) (16 * a3 + a4) (16 * a5 + a6) (some alpha)) := by
  have hb : bytesOf ['#', x1, x2, x3, x4, x5, x6] = ['#', x1, x2, x3, x4, x5, x6] := by
    apply bytesOf_ascii
    have := (hexDigit_props h1).2.1; have := (hexDigit_props h2).2.1; have := (hexDigit_props h3).2.1
    have := (hexDigit_props h4).2.1; have := (hexDigit_props h5).2.1; have := (hexDigit_props h6).2.1
    intro c hc
    simp only [List.mem_cons, List.not_mem_nil, or_false] at hc
    rcases hc with rfl | rfl | rfl | rfl | rfl | rfl | rfl <;> first | assumption | decide
  have hh : hex6Char ['#', x1, x2, x3, x4, x5, x6] = some [x1, x2, x3, x4, x5, x6] := by
    unfold hex6Char
    simp only [hb]
    rfl
  simp only [strToColor, List.cons_ne_nil, if_false, List.head?_cons, if_true, getHexColor, hh,
    hexFragments_ok h1 h2 h3 h4 h5 h6]

/-- `#rgb` means `#rrggbb`. -/
theorem C52_hex3 (rnd : ℚ → ℚ) (x y z : Char) (a b c alpha : Nat) (hx : HexDigit x a) (hy : HexDigit y b)
    (hz : HexDigit z c) : strToColor rnd ['#', x, y, z] alpha = strToColor rnd ['#', x, x, y, y, z, z] alpha ∧
      strToColor rnd ['#', x, y, z] alpha = .ok (.rgba (17 * a) (17 * b) (17 * c) (some alpha)) := by
  have hx' := (hexDigit_props hx).2.1
  have hy' := (hexDigit_props hy).2.1
  have hz' := (hexDigit_props hz).2.1
  have hb : bytesOf ['#', x, y, z] = ['#', x, y, z] := by
    apply bytesOf_ascii
    intro c hc
    simp only [List.mem_cons, List.not_mem_nil, or_false] at hc
    rcases hc with rfl | rfl | rfl | rfl <;> first | assumption | decide
  have hb2 : bytesOf [x, x, y, y, z, z] = [x, x, y, y, z, z] := by
    apply bytesOf_ascii
    intro c hc
    simp only [List.mem_cons, List.not_mem_nil, or_false] at hc
    rcases hc with rfl | rfl | rfl | rfl | rfl | rfl <;> assumption
  have hh : hex6Char ['#', x, y, z] = some [x, x, y, y, z, z] := by
    unfold hex6Char
    simp only [hb]
    rw [if_neg (by simp), if_pos (by simp)]
    rw [show (['#', x, y, z].drop 1).flatMap (fun ch => [ch, ch]) = [x, x, y, y, z, z] from rfl, hb2]
  have e : strToColor rnd ['#', x, y, z] alpha = .ok (.rgba (17 * a) (17 * b) (17 * c) (some alpha)) := by
    simp only [strToColor, List.cons_ne_nil, if_false, List.head?_cons, if_true, getHexColor, hh,
      hexFragments_ok hx hx hy hy hz hz]
    rw [show 16 * a + a = 17 * a by ring, show 16 * b + b = 17 * b by ring, show 16 * c + c = 17 * c by ring]
  refine ⟨?_, e⟩
  rw [e, C52_hex6 rnd x x y y z z a a b b c c alpha hx hx hy hy hz hz]
  rw [show 16 * a + a = 17 * a by ring, show 16 * b + b = 17 * b by ring, show 16 * c + c = 17 * c by ring]

/-- Every other string starting with `#` is an error (never a panic). -/
theorem C52_other_error (rnd : ℚ → ℚ) (t : List Char) (alpha : Nat)
    (h : ¬ ((t.length = 6 ∨ t.length = 3) ∧ ∀ c ∈ t, ∃ v, HexDigit c v)) :
    strToColor rnd ('#' :: t) alpha = .error .err := by
  have hb : bytesOf ('#' :: t) = '#' :: bytesOf t := by
    rw [bytesOf_cons, utf8_ascii (by decide)]; rfl
  have hasc : ∀ {l : List Char}, (∀ c ∈ l, ∃ v, HexDigit c v) → ∀ c ∈ l, c.toNat < 128 := by
    intro l hl c hc
    obtain ⟨v, hv⟩ := hl c hc
    exact (hexDigit_props hv).2.1
  have herr : ∀ (l : List Char) e, hexFragments l = .error e → e = .err := by
    intro l e he
    unfold hexFragments at he
    repeat' split at he
    all_goals cases he
    all_goals rfl
  simp only [strToColor, List.cons_ne_nil, if_false, List.head?_cons, if_true, getHexColor]
  cases hh : hex6Char ('#' :: t) with
  | none => rfl
  | some g =>
    cases hf : hexFragments g with
    | error e => simp only [herr g e hf, hf]
    | ok r =>
      exfalso
      apply h
      unfold hex6Char at hh
      simp only [hb, List.length_cons, Nat.add_eq_right, List.drop_succ_cons, List.drop_zero] at hh
      split at hh
      · rename_i h6
        have h6' : (bytesOf t).length = 6 := by omega
        cases hh
        rw [List.take_of_length_le (by omega)] at hf
        obtain ⟨a, b, c, d, e, f, hl⟩ := list_len6 h6'
        rw [hl] at hf
        obtain ⟨p1, p2, p3, p4, p5, p6⟩ := hexFragments_inv hf
        have hall : ∀ x ∈ bytesOf t, ∃ v, HexDigit x v := by
          rw [hl]
          intro x hx
          simp only [List.mem_cons, List.not_mem_nil, or_false] at hx
          rcases hx with rfl | rfl | rfl | rfl | rfl | rfl <;> assumption
        have ht := bytesOf_ascii (ascii_of_bytes (hasc hall))
        rw [ht] at hall h6'
        exact ⟨.inl h6', hall⟩
      · split at hh
        · rename_i h3
          have h3' : (bytesOf t).length = 3 := by omega
          cases hh
          have hlen : ∀ l : List Char, (bytesOf (l.flatMap fun ch => [ch, ch])).length = 2 * (bytesOf l).length := by
            intro l
            induction l with
            | nil => rfl
            | cons c l ih =>
              rw [List.flatMap_cons]
              simp only [List.cons_append, List.nil_append, bytesOf_cons, List.length_append, ih]; ring
          obtain ⟨a, b, c, d, e, f, hl⟩ := list_len6 (by rw [hlen, h3'] : (bytesOf (t.flatMap fun ch => [ch, ch])).length = 6)
          rw [hl] at hf
          obtain ⟨p1, p2, p3, p4, p5, p6⟩ := hexFragments_inv hf
          have hall : ∀ x ∈ bytesOf (t.flatMap fun ch => [ch, ch]), ∃ v, HexDigit x v := by
            rw [hl]
            intro x hx
            simp only [List.mem_cons, List.not_mem_nil, or_false] at hx
            rcases hx with rfl | rfl | rfl | rfl | rfl | rfl <;> assumption
          have hd := ascii_of_bytes (hasc hall)
          rw [bytesOf_ascii hd] at hall
          have hmem : ∀ c ∈ t, c ∈ t.flatMap fun ch => [ch, ch] := fun c hc =>
            List.mem_flatMap.2 ⟨c, hc, by simp⟩
          have ht := bytesOf_ascii (s := t) (fun c hc => hd c (hmem c hc))
          rw [ht] at h3'
          exact ⟨.inr h3', fun c hc => hall c (hmem c hc)⟩
        · cases hh

/-- each byte triple is written by some six digits, so all 2^24 colours are covered; a concrete one -/
example : strToColor F64.rnd "#1aFf07".toList 255 = .ok (.rgba 26 255 7 (some 255)) := by decide +kernel
example : strToColor F64.rnd "#1f7".toList 255 = .ok (.rgba 17 255 119 (some 255)) := by decide +kernel
example : HexDigit 'F' 15 ∧ HexDigit 'a' 10 := ⟨.inr rfl, .inl rfl⟩
theorem C52_all_bytes (v : Nat) (h : v < 256) : ∃ x y a b, HexDigit x a ∧ HexDigit y b ∧ 16 * a + b = v := by
  have key : ∀ d, d < 16 → ∃ c, HexDigit c d := by
    intro d hd
    refine ⟨"0123456789abcdef".toList[d]'(by simpa using hd), .inl ?_⟩
    exact List.getElem?_eq_getElem _
  obtain ⟨x, hx⟩ := key (v / 16) (by omega)
  obtain ⟨y, hy⟩ := key (v % 16) (by omega)
  exact ⟨x, y, _, _, hx, hy, by omega⟩

/-! ## C53 `rgb()` and `rgba()`, C62 `hsl()` and `hsla()` -/

/-- White space: blanks, tabs, line ends, form feeds. -/
def Ws (w : List Char) : Prop := ∀ c ∈ w, c = '\t' ∨ c = '\n' ∨ c = '\x0c' ∨ c = '\r' ∨ c = ' '
/-- A non-empty string of decimal digits. -/
def Num (d : List Char) : Prop := d ≠ [] ∧ ∀ c ∈ d, c.isDigit = true
/-- An alpha text: digits, or digits (possibly none) around a point. -/
inductive AlphaText : List Char → Prop
  | int (d : List Char) (h : ∀ c ∈ d, c.isDigit = true) : AlphaText d
  | point (a b : List Char) (ha : ∀ c ∈ a, c.isDigit = true) (hb : ∀ c ∈ b, c.isDigit = true) :
    AlphaText (a ++ '.' :: b)

/-- `name(x,y,z)` with white space `w` between the tokens. -/
def callText (name : List Char) (w : Fin 6 → List Char) (x y z : List Char) : List Char :=
  name ++ '(' :: (w 0 ++ x ++ w 1 ++ ',' :: (w 2 ++ y ++ w 3 ++ ',' :: (w 4 ++ z ++ w 5 ++ [')'])))

/-- `name(x,y,z,a)` with white space `w` between the tokens. -/
def callText4 (name : List Char) (w : Fin 8 → List Char) (x y z a : List Char) : List Char :=
  name ++ '(' :: (w 0 ++ x ++ w 1 ++ ',' :: (w 2 ++ y ++ w 3 ++ ',' :: (w 4 ++ z ++ w 5 ++ ',' ::
    (w 6 ++ a ++ w 7 ++ [')']))))

theorem ws_isSpace {w : List Char} (h : Ws w) : ∀ c ∈ w, isSpace c = true := by
  intro c hc
  rcases h c hc with rfl | rfl | rfl | rfl | rfl <;> decide

theorem ws_of_isSpace {w : List Char} (h : ∀ c ∈ w, isSpace c = true) : Ws w := by
  intro c hc
  have := h c hc
  simp only [isSpace, Bool.or_eq_true, beq_iff_eq] at this
  tauto

/-- the text does not start with a character of the class -/
def NotHead (p : Char → Bool) (s : List Char) : Prop := ∀ c ∈ s.head?, p c = false

theorem NotHead.cons {p : Char → Bool} {c : Char} {s : List Char} (h : p c = false) : NotHead p (c :: s) := by
  intro d hd; simp at hd; rw [← hd]; exact h

theorem NotHead.append {p : Char → Bool} {a b : List Char} (ha : ∀ c ∈ a, p c = false) (hb : NotHead p b) :
    NotHead p (a ++ b) := by
  cases a with
  | nil => exact hb
  | cons c a => exact NotHead.cons (ha c (by simp))

theorem space_not_dig {c : Char} (h : isSpace c = true) : isDig c = false := by
  simp only [isSpace, Bool.or_eq_true, beq_iff_eq] at h
  rcases h with (((rfl | rfl) | rfl) | rfl) | rfl <;> decide

theorem dig_not_space {c : Char} (h : isDig c = true) : isSpace c = false := by
  by_contra hc
  have := space_not_dig (by simpa using hc)
  rw [this] at h; cases h

theorem num_isDig {d : List Char} (h : Num d) : ∀ c ∈ d, isDig c = true := fun c hc => by
  rw [isDig_iff]; exact h.2 c hc

theorem num_notSpace {d more rest : List Char} (h : Num d) : NotHead isSpace ((d ++ more) ++ rest) := by
  cases hd : d with
  | nil => exact absurd hd h.1
  | cons c d' => exact NotHead.cons (dig_not_space (num_isDig h c (by simp [hd])))

theorem ws_notDig {w rest : List Char} (h : Ws w) (hr : NotHead isDig rest) : NotHead isDig (w ++ rest) :=
  NotHead.append (fun c hc => space_not_dig (ws_isSpace h c hc)) hr

theorem matches_num {i : Nat} {d rest : List Char} (h : Num d) (hr : NotHead isDig rest) :
    Matches (reNum i) d rest [(i, d)] := Matches.group (Matches.plus h.1 (num_isDig h) hr)

theorem matches_ws {w rest : List Char} (h : Ws w) (hr : NotHead isSpace rest) : Matches reWs w rest [] :=
  Matches.star (ws_isSpace h) hr

theorem matches_comma {v w rest : List Char} (hv : Ws v) (hw : Ws w) (hr : NotHead isSpace rest) :
    Matches reComma (v ++ ([','] ++ w)) rest [] :=
  Matches.seq (matches_ws hv (NotHead.cons (by decide)))
    (Matches.seq (Matches.cls (by decide)) (matches_ws hw hr))

theorem matches_pctComma {v w rest : List Char} (hv : Ws v) (hw : Ws w) (hr : NotHead isSpace rest) :
    Matches rePctComma (['%'] ++ (v ++ ([','] ++ w))) rest [] :=
  Matches.seq (Matches.cls (by decide)) (matches_comma hv hw hr)

theorem matches_close {w rest : List Char} (hw : Ws w) : Matches reClose (w ++ [')']) rest [] :=
  Matches.seq (matches_ws hw (NotHead.cons (by decide))) (Matches.cls (by decide))

theorem alpha_notSpace {al w rest : List Char} (h : AlphaText al) (hw : al ≠ [] ∨ w = [])
    (hr : NotHead isSpace rest) : NotHead isSpace (al ++ (w ++ rest)) := by
  have hc : NotHead isSpace al ∧ (al = [] → w = []) := by
    refine ⟨?_, fun h => hw.resolve_left (by simp [h])⟩
    cases h with
    | int d h =>
      intro c hc
      have := List.mem_of_mem_head? hc
      exact dig_not_space (by rw [isDig_iff]; exact h c this)
    | point a b ha hb =>
      exact NotHead.append (fun c hc => dig_not_space (by rw [isDig_iff]; exact ha c hc)) (NotHead.cons (by decide))
  cases hal : al with
  | nil => rw [hc.2 hal]; exact hr
  | cons c al' => rw [hal] at hc; exact NotHead.cons (hc.1 c (by simp))

theorem matches_alpha {i : Nat} {al rest : List Char} (h : AlphaText al) (hr : NotHead isDig rest)
    (hp : NotHead (· == '.') rest) : Matches (reAlpha i) al rest [(i, al)] := by
  cases h with
  | int d h =>
    have h1 : Matches (.star isDig) al ([] ++ ([] ++ rest)) [] :=
      Matches.star (fun c hc => by rw [isDig_iff]; exact h c hc) hr
    have h2 : Matches (.star isDig) [] rest [] := Matches.star (by simp) hr
    have h3 := Matches.seq (Matches.skipCls (p := (· == '.')) (rest := [] ++ rest) hp) h2
    have := Matches.group (i := i) (Matches.seq h1 h3)
    unfold reAlpha
    simpa using this
  | point a b ha hb =>
    have h1 : Matches (.star isDig) a ((['.'] ++ b) ++ rest) [] :=
      Matches.star (fun c hc => by rw [isDig_iff]; exact ha c hc) (NotHead.cons (by decide))
    have h2 : Matches (.star isDig) b rest [] :=
      Matches.star (fun c hc => by rw [isDig_iff]; exact hb c hc) hr
    have h3 : Matches (.opt (.cls (· == '.'))) ['.'] (b ++ rest) [] := Matches.opt (Matches.cls (by decide))
    exact Matches.group (i := i) (Matches.seq h1 (Matches.seq h3 h2))

theorem notHead_close {w : List Char} (p : Char → Bool) (hw : ∀ c ∈ w, p c = false) (h : p ')' = false) :
    NotHead p (w ++ [')']) := NotHead.append hw (NotHead.cons h)

theorem sepHead {v u more rest : List Char} (hv : Ws v) : NotHead isDig (((v ++ ([','] ++ u)) ++ more) ++ rest) := by
  rw [List.append_assoc, List.append_assoc]
  exact ws_notDig hv (NotHead.cons (by decide))

theorem closeHead {v rest : List Char} (hv : Ws v) : NotHead isDig ((v ++ [')']) ++ rest) := by
  rw [List.append_assoc]
  exact ws_notDig hv (NotHead.cons (by decide))

/-- the captures of a text of the form `rgb(x,y,z)` -/
theorem find_rgb (w : Fin 6 → List Char) (x y z : List Char) (hw : ∀ i, Ws (w i)) (hx : Num x) (hy : Num y)
    (hz : Num z) : ∃ t, reRGB.find (callText "rgb".toList w x y z) = some [(0, t), (3, z), (2, y), (1, x)] := by
  have m := Matches.seq (Matches.lit ['r', 'g', 'b', '('] _ (by simp))
    (Matches.seq (matches_ws (hw 0) (num_notSpace hx)) (Matches.seq (matches_num (i := 1) hx (sepHead (hw 1)))
    (Matches.seq (matches_comma (hw 1) (hw 2) (num_notSpace hy)) (Matches.seq (matches_num (i := 2) hy (sepHead (hw 3)))
    (Matches.seq (matches_comma (hw 3) (hw 4) (num_notSpace hz)) (Matches.seq (matches_num (i := 3) hz (closeHead (hw 5)))
    (matches_close (w := w 5) (rest := []) (hw 5))))))))
  have := m.find
  rw [List.append_nil] at this
  have e : callText "rgb".toList w x y z =
      ['r', 'g', 'b', '('] ++ (w 0 ++ (x ++ ((w 1 ++ ([','] ++ w 2)) ++ (y ++ ((w 3 ++ ([','] ++ w 4)) ++
      (z ++ (w 5 ++ [')']))))))) := by
    simp [callText]
  rw [e]
  exact ⟨_, this⟩

theorem find_hsl (w : Fin 6 → List Char) (x y z : List Char) (hw : ∀ i, Ws (w i)) (hx : Num x) (hy : Num y)
    (hz : Num z) : ∃ t, reHSL.find (callText "hsl".toList w x (y ++ ['%']) (z ++ ['%'])) =
      some [(0, t), (3, z), (2, y), (1, x)] := by
  have m := Matches.seq (Matches.lit ['h', 's', 'l', '('] _ (by simp))
    (Matches.seq (matches_ws (hw 0) (num_notSpace hx)) (Matches.seq (matches_num (i := 1) hx (sepHead (hw 1)))
    (Matches.seq (matches_comma (hw 1) (hw 2) (num_notSpace hy)) (Matches.seq (matches_num (i := 2) hy
      (NotHead.cons (by decide)))
    (Matches.seq (matches_pctComma (hw 3) (hw 4) (num_notSpace hz)) (Matches.seq (matches_num (i := 3) hz
      (NotHead.cons (by decide)))
    (Matches.seq (Matches.cls (p := (· == '%')) (c := '%') (by decide))
    (matches_close (w := w 5) (rest := []) (hw 5)))))))))
  have := m.find
  rw [List.append_nil] at this
  have e : callText "hsl".toList w x (y ++ ['%']) (z ++ ['%']) =
      ['h', 's', 'l', '('] ++ (w 0 ++ (x ++ ((w 1 ++ ([','] ++ w 2)) ++ (y ++ ((['%'] ++ (w 3 ++ ([','] ++ w 4))) ++
      (z ++ (['%'] ++ (w 5 ++ [')'])))))))) := by
    simp [callText]
  rw [e]
  exact ⟨_, this⟩

theorem find_rgba (w : Fin 8 → List Char) (x y z al : List Char) (hw : ∀ i, Ws (w i)) (hx : Num x) (hy : Num y)
    (hz : Num z) (ha : AlphaText al) (hne : al ≠ [] ∨ w 7 = []) :
    ∃ t, reRGBA.find (callText4 "rgba".toList w x y z al) = some [(0, t), (4, al), (3, z), (2, y), (1, x)] := by
  have hpt : NotHead (· == '.') ((w 7 ++ [')']) ++ []) := by
    rw [List.append_nil]
    exact notHead_close _ (fun c hc => by rcases hw 7 c hc with rfl | rfl | rfl | rfl | rfl <;> decide) (by decide)
  have hdg : NotHead isDig ((w 7 ++ [')']) ++ []) := by
    rw [List.append_nil]; exact ws_notDig (hw 7) (NotHead.cons (by decide))
  have hsp : NotHead isSpace ((al ++ (w 7 ++ [')'])) ++ []) := by
    rw [List.append_nil]; exact alpha_notSpace ha hne (NotHead.cons (by decide))
  have m := Matches.seq (Matches.lit ['r', 'g', 'b', 'a', '('] _ (by simp))
    (Matches.seq (matches_ws (hw 0) (num_notSpace hx)) (Matches.seq (matches_num (i := 1) hx (sepHead (hw 1)))
    (Matches.seq (matches_comma (hw 1) (hw 2) (num_notSpace hy)) (Matches.seq (matches_num (i := 2) hy (sepHead (hw 3)))
    (Matches.seq (matches_comma (hw 3) (hw 4) (num_notSpace hz)) (Matches.seq (matches_num (i := 3) hz (sepHead (hw 5)))
    (Matches.seq (matches_comma (hw 5) (hw 6) hsp)
    (Matches.seq (matches_alpha (i := 4) ha hdg hpt) (matches_close (w := w 7) (rest := []) (hw 7))))))))))
  have := m.find
  rw [List.append_nil] at this
  have e : callText4 "rgba".toList w x y z al =
      ['r', 'g', 'b', 'a', '('] ++ (w 0 ++ (x ++ ((w 1 ++ ([','] ++ w 2)) ++ (y ++ ((w 3 ++ ([','] ++ w 4)) ++
      (z ++ ((w 5 ++ ([','] ++ w 6)) ++ (al ++ (w 7 ++ [')']))))))))) := by
    simp [callText4]
  rw [e]
  exact ⟨_, this⟩

theorem find_hsla (w : Fin 8 → List Char) (x y z al : List Char) (hw : ∀ i, Ws (w i)) (hx : Num x) (hy : Num y)
    (hz : Num z) (ha : AlphaText al) (hne : al ≠ [] ∨ w 7 = []) :
    ∃ t, reHSLA.find (callText4 "hsla".toList w x (y ++ ['%']) (z ++ ['%']) al) =
      some [(0, t), (4, al), (3, z), (2, y), (1, x)] := by
  have hpt : NotHead (· == '.') ((w 7 ++ [')']) ++ []) := by
    rw [List.append_nil]
    exact notHead_close _ (fun c hc => by rcases hw 7 c hc with rfl | rfl | rfl | rfl | rfl <;> decide) (by decide)
  have hdg : NotHead isDig ((w 7 ++ [')']) ++ []) := by
    rw [List.append_nil]; exact ws_notDig (hw 7) (NotHead.cons (by decide))
  have hsp : NotHead isSpace ((al ++ (w 7 ++ [')'])) ++ []) := by
    rw [List.append_nil]; exact alpha_notSpace ha hne (NotHead.cons (by decide))
  have m := Matches.seq (Matches.lit ['h', 's', 'l', 'a', '('] _ (by simp))
    (Matches.seq (matches_ws (hw 0) (num_notSpace hx)) (Matches.seq (matches_num (i := 1) hx (sepHead (hw 1)))
    (Matches.seq (matches_comma (hw 1) (hw 2) (num_notSpace hy)) (Matches.seq (matches_num (i := 2) hy
      (NotHead.cons (by decide)))
    (Matches.seq (matches_pctComma (hw 3) (hw 4) (num_notSpace hz)) (Matches.seq (matches_num (i := 3) hz
      (NotHead.cons (by decide)))
    (Matches.seq (matches_pctComma (hw 5) (hw 6) hsp)
    (Matches.seq (matches_alpha (i := 4) ha hdg hpt) (matches_close (w := w 7) (rest := []) (hw 7))))))))))
  have := m.find
  rw [List.append_nil] at this
  have e : callText4 "hsla".toList w x (y ++ ['%']) (z ++ ['%']) al =
      ['h', 's', 'l', 'a', '('] ++ (w 0 ++ (x ++ ((w 1 ++ ([','] ++ w 2)) ++ (y ++ ((['%'] ++ (w 3 ++ ([','] ++ w 4))) ++
      (z ++ ((['%'] ++ (w 5 ++ ([','] ++ w 6))) ++ (al ++ (w 7 ++ [')']))))))))) := by
    simp [callText4]
  rw [e]
  exact ⟨_, this⟩

/-- a pattern that begins with a literal word finds nothing in a text without that word -/
theorem find_none_of_lit {l : List Char} (hl : l ≠ []) {r : Re} {s : List Char}
    (h : ∀ pre post, s ≠ pre ++ (l ++ post)) : (Re.seq (lit l) r).find s = none := by
  cases hf : (Re.seq (lit l) r).find s with
  | none => rfl
  | some x =>
    obtain ⟨pre, a, post, caps, e, ⟨u, v, c1, c2, e1, h1, h2, _⟩, _⟩ := find_sound _ _ _ hf
    obtain ⟨e2, _⟩ := lit_lang l u _ c1 hl h1
    exact absurd (by rw [e, e1, e2]; simp) (h pre (v ++ post))

/-- a text whose only occurrence of `c` is at the start contains no word starting with `c` other than at the start -/
theorem no_infix {c : Char} {s l : List Char} (hs : c ∉ s) (hne : ∀ post, c :: s ≠ (c :: l) ++ post) :
    ∀ pre post, c :: s ≠ pre ++ ((c :: l) ++ post) := by
  intro pre post e
  cases pre with
  | nil => exact hne post (by simpa using e)
  | cons d pre =>
    simp only [List.cons_append, List.cons.injEq] at e
    apply hs
    rw [e.2]; simp

theorem no_infix' {c : Char} {s l : List Char} (hs : c ∉ s) : ∀ pre post, s ≠ pre ++ ((c :: l) ++ post) := by
  intro pre post e
  apply hs
  rw [e]; simp

/-- no letters: what follows the function name -/
def NoLetter (s : List Char) : Prop := ∀ c ∈ s, c ≠ 'h' ∧ c ≠ 'r'

theorem NoLetter.app {a b : List Char} (ha : NoLetter a) (hb : NoLetter b) : NoLetter (a ++ b) := by
  intro c hc
  rcases List.mem_append.1 hc with h | h
  · exact ha c h
  · exact hb c h

theorem NoLetter.con {c : Char} {b : List Char} (h : c ≠ 'h' ∧ c ≠ 'r') (hb : NoLetter b) : NoLetter (c :: b) := by
  intro d hd
  rcases List.mem_cons.1 hd with rfl | h'
  · exact h
  · exact hb d h'

theorem NoLetter.nl : NoLetter [] := by intro c hc; simp at hc

theorem ws_noLetter {w : List Char} (h : Ws w) : NoLetter w := by
  intro c hc
  rcases h c hc with rfl | rfl | rfl | rfl | rfl <;> decide

theorem dig_noLetter {d : List Char} (h : ∀ c ∈ d, c.isDigit = true) : NoLetter d := by
  intro c hc
  have := h c hc
  constructor <;> (rintro rfl; revert this; decide)

theorem alpha_noLetter {al : List Char} (h : AlphaText al) : NoLetter al := by
  cases h with
  | int _ h => exact dig_noLetter h
  | point a b ha hb => exact (dig_noLetter ha).app (.con (by decide) (dig_noLetter hb))

theorem args_noLetter {w : Fin 6 → List Char} {x y z : List Char} (hw : ∀ i, Ws (w i)) (hx : NoLetter x)
    (hy : NoLetter y) (hz : NoLetter z) : NoLetter (callText [] w x y z) :=
  .con (by decide) ((((ws_noLetter (hw 0)).app hx).app (ws_noLetter (hw 1))).app (.con (by decide)
    ((((ws_noLetter (hw 2)).app hy).app (ws_noLetter (hw 3))).app (.con (by decide)
    ((((ws_noLetter (hw 4)).app hz).app (ws_noLetter (hw 5))).app (.con (by decide) .nl))))))

theorem args4_noLetter {w : Fin 8 → List Char} {x y z al : List Char} (hw : ∀ i, Ws (w i)) (hx : NoLetter x)
    (hy : NoLetter y) (hz : NoLetter z) (ha : NoLetter al) : NoLetter (callText4 [] w x y z al) :=
  .con (by decide) ((((ws_noLetter (hw 0)).app hx).app (ws_noLetter (hw 1))).app (.con (by decide)
    ((((ws_noLetter (hw 2)).app hy).app (ws_noLetter (hw 3))).app (.con (by decide)
    ((((ws_noLetter (hw 4)).app hz).app (ws_noLetter (hw 5))).app (.con (by decide)
    ((((ws_noLetter (hw 6)).app ha).app (ws_noLetter (hw 7))).app (.con (by decide) .nl))))))))

theorem num_noLetter {d : List Char} (h : Num d) : NoLetter d := dig_noLetter h.2

theorem pct_noLetter {d : List Char} (h : Num d) : NoLetter (d ++ ['%']) :=
  (dig_noLetter h.2).app (.con (by decide) .nl)

theorem get123 (t x y z : List Char) : Caps.get [(0, t), (3, z), (2, y), (1, x)] 1 = x ∧
    Caps.get [(0, t), (3, z), (2, y), (1, x)] 2 = y ∧ Caps.get [(0, t), (3, z), (2, y), (1, x)] 3 = z := by
  refine ⟨?_, ?_, ?_⟩ <;> simp [Caps.get]

theorem get1234 (t x y z a : List Char) : Caps.get [(0, t), (4, a), (3, z), (2, y), (1, x)] 1 = x ∧
    Caps.get [(0, t), (4, a), (3, z), (2, y), (1, x)] 2 = y ∧ Caps.get [(0, t), (4, a), (3, z), (2, y), (1, x)] 3 = z ∧
    Caps.get [(0, t), (4, a), (3, z), (2, y), (1, x)] 4 = a := by
  refine ⟨?_, ?_, ?_, ?_⟩ <;> simp [Caps.get]

theorem rgbFragments_num {m : Caps} {x y z : List Char} (h1 : m.get 1 = x) (h2 : m.get 2 = y) (h3 : m.get 3 = z)
    (hx : Num x) (hy : Num y) (hz : Num z) : rgbFragments m =
      if digitsVal x ≤ 255 ∧ digitsVal y ≤ 255 ∧ digitsVal z ≤ 255 then .ok (digitsVal x, digitsVal y, digitsVal z)
      else .error .err := by
  unfold rgbFragments
  rw [h1, h2, h3, parseUint8_digits hx.1 hx.2, parseUint8_digits hy.1 hy.2, parseUint8_digits hz.1 hz.2]
  by_cases a : digitsVal x ≤ 255 <;> by_cases b : digitsVal y ≤ 255 <;> by_cases c : digitsVal z ≤ 255 <;>
    simp [a, b, c]

theorem hslFragments_num {rnd : ℚ → ℚ} {m : Caps} {x y z : List Char} (h1 : m.get 1 = x) (h2 : m.get 2 = y)
    (h3 : m.get 3 = z) (hx : Num x) (hy : Num y) (hz : Num z) :
    hslFragments rnd m = if F64.fits (rnd (digitsVal x)) ∧ F64.fits (rnd (digitsVal y)) ∧ F64.fits (rnd (digitsVal z)) then
      .ok (rnd (digitsVal x), rnd (digitsVal y), rnd (digitsVal z)) else .error .err := by
  unfold hslFragments parseFin
  rw [h1, h2, h3, parseFloat_digits rnd hx.1 hx.2, parseFloat_digits rnd hy.1 hy.2, parseFloat_digits rnd hz.1 hz.2]
  by_cases a : F64.fits (rnd (digitsVal x)) <;> by_cases b : F64.fits (rnd (digitsVal y)) <;>
    by_cases c : F64.fits (rnd (digitsVal z)) <;> simp [a, b, c]

/-- `rgb(r,g,b)` with any white space between the tokens and any digit strings (leading zeros allowed) is the
three bytes, opaque — or an error when a component exceeds 255. -/
theorem C53_rgb (rnd : ℚ → ℚ) (w : Fin 6 → List Char) (x y z : List Char) (alpha : Nat) (hw : ∀ i, Ws (w i))
    (hx : Num x) (hy : Num y) (hz : Num z) :
    strToColor rnd (callText "rgb".toList w x y z) alpha =
      if digitsVal x ≤ 255 ∧ digitsVal y ≤ 255 ∧ digitsVal z ≤ 255 then
        .ok (.rgba (digitsVal x) (digitsVal y) (digitsVal z) (some alpha))
      else .error .err := by
  have hnl := args_noLetter hw (num_noLetter hx) (num_noLetter hy) (num_noLetter hz)
  have e : callText "rgb".toList w x y z = 'r' :: 'g' :: 'b' :: callText [] w x y z := rfl
  have hh : 'h' ∉ callText "rgb".toList w x y z := by
    rw [e]; intro h
    simp only [List.mem_cons] at h
    rcases h with h | h | h | h
    · exact absurd h (by decide)
    · exact absurd h (by decide)
    · exact absurd h (by decide)
    · exact (hnl _ h).1 rfl
  have f1 : reHSL.find (callText "rgb".toList w x y z) = none := find_none_of_lit (by simp) (no_infix' hh)
  have f2 : reHSLA.find (callText "rgb".toList w x y z) = none := find_none_of_lit (by simp) (no_infix' hh)
  obtain ⟨t, f3⟩ := find_rgb w x y z hw hx hy hz
  obtain ⟨g1, g2, g3⟩ := get123 t x y z
  unfold strToColor
  rw [if_neg (by rw [e]; simp), if_neg (by rw [e]; simp)]
  simp only [funcColor, f1, f2, f3, getRGBColor, rgbFragments_num g1 g2 g3 hx hy hz]
  by_cases h : digitsVal x ≤ 255 ∧ digitsVal y ≤ 255 ∧ digitsVal z ≤ 255
  · simp only [if_pos h]
  · simp only [if_neg h]

/-- The number an alpha text spells, if it has a digit. -/
inductive AlphaVal : List Char → ℚ → Prop
  | int (d : List Char) (hn : d ≠ []) (h : ∀ c ∈ d, c.isDigit = true) : AlphaVal d (digitsVal d)
  | point (a b : List Char) (hn : a ≠ [] ∨ b ≠ []) (ha : ∀ c ∈ a, c.isDigit = true)
      (hb : ∀ c ∈ b, c.isDigit = true) : AlphaVal (a ++ '.' :: b) ((digitsVal (a ++ b) : ℚ) / 10 ^ b.length)

theorem alphaVal_text {al : List Char} {q : ℚ} (h : AlphaVal al q) : AlphaText al ∧ al ≠ [] := by
  cases h with
  | int _ hn h => exact ⟨.int _ h, hn⟩
  | point a b hn ha hb => exact ⟨.point a b ha hb, by simp⟩

theorem alphaVal_parse (rnd : ℚ → ℚ) {al : List Char} {q : ℚ} (h : AlphaVal al q) :
    parseFin rnd al = if F64.fits (rnd q) then some (rnd q) else none := by
  unfold parseFin
  cases h with
  | int _ hn h => rw [parseFloat_digits rnd hn h]
  | point a b hn ha hb => rw [parseFloat_point rnd hn ha hb]

theorem rgba_find (w : Fin 8 → List Char) (x y z al : List Char) (hw : ∀ i, Ws (w i))
    (hx : Num x) (hy : Num y) (hz : Num z) (ha : AlphaText al) (hne : al ≠ [] ∨ w 7 = []) (rnd : ℚ → ℚ) (alpha : Nat) :
    strToColor rnd (callText4 "rgba".toList w x y z al) alpha =
      if digitsVal x ≤ 255 ∧ digitsVal y ≤ 255 ∧ digitsVal z ≤ 255 then
        match parseFin rnd al with
        | none => .error .err
        | some a => .ok (.rgba (digitsVal x) (digitsVal y) (digitsVal z) (alphaByte rnd a))
      else .error .err := by
  have hnl := args4_noLetter hw (num_noLetter hx) (num_noLetter hy) (num_noLetter hz) (alpha_noLetter ha)
  have e : callText4 "rgba".toList w x y z al = 'r' :: 'g' :: 'b' :: 'a' :: callText4 [] w x y z al := rfl
  have hh : 'h' ∉ callText4 "rgba".toList w x y z al := by
    rw [e]; intro h
    simp only [List.mem_cons] at h
    rcases h with h | h | h | h | h
    · exact absurd h (by decide)
    · exact absurd h (by decide)
    · exact absurd h (by decide)
    · exact absurd h (by decide)
    · exact (hnl _ h).1 rfl
  have hr : 'r' ∉ 'g' :: 'b' :: 'a' :: callText4 [] w x y z al := by
    intro h
    simp only [List.mem_cons] at h
    rcases h with h | h | h | h
    · exact absurd h (by decide)
    · exact absurd h (by decide)
    · exact absurd h (by decide)
    · exact (hnl _ h).2 rfl
  have f1 : reHSL.find (callText4 "rgba".toList w x y z al) = none := find_none_of_lit (by simp) (no_infix' hh)
  have f2 : reHSLA.find (callText4 "rgba".toList w x y z al) = none := find_none_of_lit (by simp) (no_infix' hh)
  have f3 : reRGB.find (callText4 "rgba".toList w x y z al) = none := by
    rw [e]
    exact find_none_of_lit (by simp) (no_infix hr (by simp))
  obtain ⟨t, f4⟩ := find_rgba w x y z al hw hx hy hz ha hne
  obtain ⟨g1, g2, g3, g4⟩ := get1234 t x y z al
  unfold strToColor
  rw [if_neg (by rw [e]; simp), if_neg (by rw [e]; simp)]
  simp only [funcColor, f1, f2, f3, f4, getRGBAColor, rgbFragments_num g1 g2 g3 hx hy hz, g4]
  by_cases h : digitsVal x ≤ 255 ∧ digitsVal y ≤ 255 ∧ digitsVal z ≤ 255
  · simp only [if_pos h]
    cases parseFin rnd al <;> rfl
  · simp only [if_neg h]

/-- `rgba(r,g,b,a)` with any white space: the three bytes and the alpha byte of the alpha numeral (see
`C53_alpha`), or an error when a component exceeds 255 or the alpha numeral float64. -/
theorem C53_rgba (w : Fin 8 → List Char) (x y z al : List Char) (q : ℚ) (alpha : Nat) (hw : ∀ i, Ws (w i))
    (hx : Num x) (hy : Num y) (hz : Num z) (ha : AlphaVal al q) :
    strToColor F64.rnd (callText4 "rgba".toList w x y z al) alpha =
      if digitsVal x ≤ 255 ∧ digitsVal y ≤ 255 ∧ digitsVal z ≤ 255 ∧ Doc.InRange q then
        .ok (.rgba (digitsVal x) (digitsVal y) (digitsVal z) (alphaByte F64.rnd (F64.rnd q)))
      else .error .err := by
  obtain ⟨h1, h2⟩ := alphaVal_text ha
  rw [rgba_find w x y z al hw hx hy hz h1 (.inl h2), alphaVal_parse F64.rnd ha]
  by_cases hf : F64.fits (F64.rnd q) = true
  · rw [if_pos hf]
    have := (F64.fits_rnd q).1 hf
    by_cases h : digitsVal x ≤ 255 ∧ digitsVal y ≤ 255 ∧ digitsVal z ≤ 255
    · rw [if_pos h, if_pos ⟨h.1, h.2.1, h.2.2, this⟩]
    · rw [if_neg h, if_neg (by tauto)]
  · rw [if_neg hf]
    have hn : ¬ Doc.InRange q := fun h => hf ((F64.fits_rnd q).2 h)
    simp [hn]

/-- An alpha without any digit (nothing, or just a point) is an error. -/
theorem C53_alpha_missing (w : Fin 8 → List Char) (x y z al : List Char) (alpha : Nat) (hw : ∀ i, Ws (w i))
    (hx : Num x) (hy : Num y) (hz : Num z) (ha : (al = [] ∧ w 7 = []) ∨ al = ['.']) :
    strToColor F64.rnd (callText4 "rgba".toList w x y z al) alpha = .error .err := by
  rcases ha with ⟨rfl, h7⟩ | rfl
  · rw [rgba_find w x y z [] hw hx hy hz (.int [] (by simp)) (.inr h7), parseFin, (parseFloat_none F64.rnd).1]
    simp
  · rw [rgba_find w x y z ['.'] hw hx hy hz (.point [] [] (by simp) (by simp)) (.inl (by simp)), parseFin,
      (parseFloat_none F64.rnd).2]
    simp

theorem goRound_err {q : ℚ} (h : 0 ≤ q) : |(goRound q : ℚ) - q| ≤ 1 / 2 := by
  unfold goRound
  rw [if_pos h, abs_le]
  have h1 := Int.floor_le (q + 1 / 2)
  have h2 := Int.lt_floor_add_one (q + 1 / 2)
  constructor <;> linarith

theorem rnd_half : F64.rnd (1 / 2) = 1 / 2 := by decide +kernel

/-- The alpha byte of a numeral between 1/512 and 1 is defined, and is `256*alpha - 1` rounded to the nearest
integer (up to the float64 rounding of the numeral); for alpha 1 it is 255. -/
theorem C53_alpha (q : ℚ) (h0 : 1 / 512 ≤ q) (h1 : q ≤ 1) :
    ∃ n : Nat, n ≤ 255 ∧ alphaByte F64.rnd (F64.rnd q) = some n ∧ |((n : ℚ) + 1) - 256 * q| ≤ 1 / 2 + 1 / 2 ^ 43 := by
  have r1 : F64.rnd q ≤ 1 := by
    have := F64.rnd_mono h1
    rwa [show F64.rnd 1 = 1 by decide +kernel] at this
  have r0 : 1 / 512 ≤ F64.rnd q := by
    have := F64.rnd_mono h0
    rwa [show F64.rnd (1 / 512) = 1 / 512 by decide +kernel] at this
  set p := F64.rnd q with hp
  have e1 := F64.rnd_err q
  rw [← hp, abs_of_nonneg (by linarith : (0 : ℚ) ≤ q)] at e1
  set m := F64.rnd (p * 256) with hm
  have m1 : m ≤ 256 := by
    have := F64.rnd_mono (show p * 256 ≤ 256 by linarith)
    rwa [show F64.rnd 256 = 256 by decide +kernel] at this
  have m0 : 1 / 2 ≤ m := by
    have := F64.rnd_mono (show 1 / 2 ≤ p * 256 by linarith)
    rwa [rnd_half] at this
  have e2 := F64.rnd_err (p * 256)
  rw [← hm, abs_of_nonneg (by linarith : (0 : ℚ) ≤ p * 256)] at e2
  have e3 := goRound_err (show 0 ≤ m by linarith)
  set g := goRound m with hg
  have g0 : 1 ≤ g := by
    rw [hg]; unfold goRound; rw [if_pos (by linarith)]
    apply Int.le_floor.2; push_cast; linarith
  have g1 : g ≤ 256 := by
    rw [hg]; unfold goRound; rw [if_pos (by linarith)]
    have : ⌊m + 1 / 2⌋ < 257 := Int.floor_lt.2 (by push_cast; linarith)
    omega
  have hr : F64.rnd ((g : ℚ) - 1) = ((g - 1 : ℤ) : ℚ) := by
    have := F64.rnd_int (g - 1) (by rw [abs_of_nonneg (by omega)]; omega)
    rw [← this]; push_cast; rfl
  refine ⟨(g - 1).toNat, by omega, ?_, ?_⟩
  · unfold alphaByte
    rw [← hm, ← hg, hr]
    unfold toU8
    have c1 : (-1 : ℚ) < ((g - 1 : ℤ) : ℚ) := by
      have : ((-1 : ℤ) : ℚ) < ((g - 1 : ℤ) : ℚ) := by exact_mod_cast (by omega : (-1 : ℤ) < g - 1)
      simpa using this
    have c2 : ((g - 1 : ℤ) : ℚ) < 256 := by
      have : ((g - 1 : ℤ) : ℚ) < ((256 : ℤ) : ℚ) := by exact_mod_cast (by omega : g - 1 < (256 : ℤ))
      simpa using this
    rw [if_pos ⟨c1, c2⟩, Int.floor_intCast]
  · have hc : (((g - 1).toNat : ℕ) : ℚ) + 1 = g := by
      have : (((g - 1).toNat : ℤ)) = g - 1 := Int.toNat_of_nonneg (by omega)
      have h' : (((g - 1).toNat : ℤ) : ℚ) = ((g - 1 : ℤ) : ℚ) := by rw [this]
      push_cast at h'
      linarith
    rw [hc]
    rw [abs_le] at e1 e2 e3 ⊢
    have b1 : q / 2 ^ 53 ≤ 1 / 2 ^ 53 := by apply div_le_div_of_nonneg_right h1; positivity
    have b2 : p * 256 / 2 ^ 53 ≤ 256 / 2 ^ 53 := by
      apply div_le_div_of_nonneg_right (by linarith); positivity
    norm_num at b1 b2 e1 e2 ⊢
    constructor <;> linarith [e1.1, e1.2, e2.1, e2.2, e3.1, e3.2]

/-- Alpha 1 is opaque; alpha 0 (and every alpha up to 1/1024) asks Go to convert -1 to a byte, which the
language leaves to the implementation (amd64 gives 255: fully opaque). -/
theorem C53_alpha_ends : alphaByte F64.rnd (F64.rnd 1) = some 255 ∧
    ∀ q : ℚ, 0 ≤ q → q ≤ 1 / 1024 → alphaByte F64.rnd (F64.rnd q) = none := by
  refine ⟨by decide +kernel, fun q h0 h1 => ?_⟩
  have r1 : F64.rnd q ≤ 1 / 1024 := by
    have := F64.rnd_mono h1
    rwa [show F64.rnd (1 / 1024) = 1 / 1024 by decide +kernel] at this
  have r0 : 0 ≤ F64.rnd q := by
    have := F64.rnd_mono h0
    rwa [F64.rnd_zero] at this
  set p := F64.rnd q
  have m1 : F64.rnd (p * 256) ≤ 1 / 4 := by
    have := F64.rnd_mono (show p * 256 ≤ 1 / 4 by linarith)
    rwa [show F64.rnd (1 / 4) = 1 / 4 by decide +kernel] at this
  have m0 : 0 ≤ F64.rnd (p * 256) := by
    have := F64.rnd_mono (show 0 ≤ p * 256 by linarith)
    rwa [F64.rnd_zero] at this
  have hg : goRound (F64.rnd (p * 256)) = 0 := by
    unfold goRound; rw [if_pos m0, Int.floor_eq_iff]
    push_cast; constructor <;> linarith
  unfold alphaByte
  rw [hg, show F64.rnd (((0 : ℤ) : ℚ) - 1) = -1 by decide +kernel]
  unfold toU8
  rw [if_neg (by norm_num)]

theorem rnd_big {n : Nat} {k : Nat} (hk : F64.rnd (k : ℚ) = k) (h : k ≤ n) : (k : ℚ) ≤ F64.rnd n := by
  have := F64.rnd_mono (show (k : ℚ) ≤ n by exact_mod_cast h)
  rwa [hk] at this

theorem rnd_small {n : Nat} (h : n ≤ 1000) : F64.rnd (n : ℚ) = n := by
  have := F64.rnd_int n (by rw [abs_of_nonneg (by omega)]; omega)
  simpa using this

theorem fits_small {n : Nat} (h : n ≤ 1000) : F64.fits (F64.rnd (n : ℚ)) = true := by
  rw [rnd_small h]
  unfold F64.fits
  rw [decide_eq_true_eq, abs_of_nonneg (by positivity)]
  refine lt_of_le_of_lt (b := (1000 : ℚ)) (by exact_mod_cast h) ?_
  decide +kernel

/-- the range check of `NewHSLColor` on parsed components -/
theorem newHSL_nat (h s l : Nat) (a : Option Nat) :
    newHSLColor (F64.rnd h) (F64.rnd (F64.rnd s / 100)) (F64.rnd (F64.rnd l / 100)) a =
      if h ≤ 360 ∧ s ≤ 100 ∧ l ≤ 100 then
        .ok (.hsl h (F64.rnd ((s : ℚ) / 100)) (F64.rnd ((l : ℚ) / 100)) a)
      else .error .err := by
  have nn : ∀ q : ℚ, 0 ≤ q → ¬ F64.rnd q < 0 := by
    intro q hq
    have := F64.rnd_mono hq
    rw [F64.rnd_zero] at this; exact not_lt.2 this
  have hundred : ∀ s : Nat, s ≤ 100 → F64.rnd s = s ∧ ¬ (1 < F64.rnd (F64.rnd s / 100)) := by
    intro s hs
    have e := rnd_small (n := s) (by omega)
    refine ⟨e, not_lt.2 ?_⟩
    rw [e]
    have h1 : (s : ℚ) / 100 ≤ 1 := by rw [div_le_one (by norm_num)]; exact_mod_cast hs
    have := F64.rnd_mono h1
    rwa [show F64.rnd 1 = 1 by decide +kernel] at this
  have hover : ∀ s : Nat, ¬ s ≤ 100 → 1 < F64.rnd (F64.rnd s / 100) := by
    intro s hs
    have h1 : (101 : ℚ) ≤ F64.rnd s := rnd_big (k := 101) (by decide +kernel) (by omega)
    have := F64.rnd_mono (show (101 / 100 : ℚ) ≤ F64.rnd s / 100 by linarith)
    exact lt_of_lt_of_le (by decide +kernel : (1 : ℚ) < F64.rnd (101 / 100)) this
  have pos : ∀ s : Nat, (0 : ℚ) ≤ F64.rnd s / 100 := by
    intro s
    have := not_lt.1 (nn s (by positivity))
    linarith
  unfold newHSLColor
  by_cases hh : h ≤ 360
  · have e := rnd_small (n := h) (by omega)
    have h1 : ¬ ((360 : ℚ) < h) := by
      have : (h : ℚ) ≤ 360 := by exact_mod_cast hh
      exact not_lt.2 this
    have h2 : ¬ ((h : ℚ) < 0) := not_lt.2 (by positivity)
    rw [e, if_neg (by tauto)]
    by_cases hs : s ≤ 100
    · obtain ⟨es, os⟩ := hundred s hs
      rw [if_neg (by have := nn _ (pos s); tauto)]
      by_cases hl : l ≤ 100
      · obtain ⟨el, ol⟩ := hundred l hl
        rw [if_neg (by have := nn _ (pos l); tauto), if_pos ⟨hh, hs, hl⟩, es, el]
      · rw [if_pos (.inr (hover l hl)), if_neg (by tauto)]
    · rw [if_pos (.inr (hover s hs)), if_neg (by tauto)]
  · have h1 : (361 : ℚ) ≤ F64.rnd h := rnd_big (k := 361) (by decide +kernel) (by omega)
    rw [if_pos (.inr (by linarith)), if_neg (by tauto)]

/-- `hsl(h,s%,l%)` with any white space: the colour with hue `h`, saturation `s/100` and lightness `l/100`,
opaque, if `h ≤ 360` and `s, l ≤ 100`; otherwise an error. -/
theorem C62_hsl (w : Fin 6 → List Char) (x y z : List Char) (alpha : Nat) (hw : ∀ i, Ws (w i))
    (hx : Num x) (hy : Num y) (hz : Num z) :
    strToColor F64.rnd (callText "hsl".toList w x (y ++ ['%']) (z ++ ['%'])) alpha =
      if digitsVal x ≤ 360 ∧ digitsVal y ≤ 100 ∧ digitsVal z ≤ 100 then
        .ok (.hsl (digitsVal x) (F64.rnd ((digitsVal y : ℚ) / 100)) (F64.rnd ((digitsVal z : ℚ) / 100)) (some alpha))
      else .error .err := by
  have e : callText "hsl".toList w x (y ++ ['%']) (z ++ ['%']) =
      'h' :: 's' :: 'l' :: callText [] w x (y ++ ['%']) (z ++ ['%']) := rfl
  obtain ⟨t, f1⟩ := find_hsl w x y z hw hx hy hz
  obtain ⟨g1, g2, g3⟩ := get123 t x y z
  unfold strToColor
  rw [if_neg (by rw [e]; simp), if_neg (by rw [e]; simp)]
  simp only [funcColor, f1, getHSLColor, hslFragments_num g1 g2 g3 hx hy hz]
  by_cases hf : F64.fits (F64.rnd (digitsVal x)) ∧ F64.fits (F64.rnd (digitsVal y)) ∧ F64.fits (F64.rnd (digitsVal z))
  · simp only [if_pos hf]
    exact newHSL_nat _ _ _ _
  · simp only [if_neg hf]
    rw [if_neg (fun h => hf ⟨fits_small (by omega), fits_small (by omega), fits_small (by omega)⟩)]

/-- `hsla(h,s%,l%,a)`: the same with the alpha byte of `C53_alpha`. -/
theorem C62_hsla (w : Fin 8 → List Char) (x y z al : List Char) (q : ℚ) (alpha : Nat) (hw : ∀ i, Ws (w i))
    (hx : Num x) (hy : Num y) (hz : Num z) (ha : AlphaVal al q) :
    strToColor F64.rnd (callText4 "hsla".toList w x (y ++ ['%']) (z ++ ['%']) al) alpha =
      if digitsVal x ≤ 360 ∧ digitsVal y ≤ 100 ∧ digitsVal z ≤ 100 ∧ Doc.InRange q then
        .ok (.hsl (digitsVal x) (F64.rnd ((digitsVal y : ℚ) / 100)) (F64.rnd ((digitsVal z : ℚ) / 100))
          (alphaByte F64.rnd (F64.rnd q)))
      else .error .err := by
  obtain ⟨ha1, ha2⟩ := alphaVal_text ha
  have hnl := args4_noLetter hw (num_noLetter hx) (pct_noLetter hy) (pct_noLetter hz) (alpha_noLetter ha1)
  have e : callText4 "hsla".toList w x (y ++ ['%']) (z ++ ['%']) al =
      'h' :: 's' :: 'l' :: 'a' :: callText4 [] w x (y ++ ['%']) (z ++ ['%']) al := rfl
  have hr : 'h' ∉ 's' :: 'l' :: 'a' :: callText4 [] w x (y ++ ['%']) (z ++ ['%']) al := by
    intro h
    simp only [List.mem_cons] at h
    rcases h with h | h | h | h
    · exact absurd h (by decide)
    · exact absurd h (by decide)
    · exact absurd h (by decide)
    · exact (hnl _ h).1 rfl
  have f1 : reHSL.find (callText4 "hsla".toList w x (y ++ ['%']) (z ++ ['%']) al) = none := by
    rw [e]
    exact find_none_of_lit (by simp) (no_infix hr (by simp))
  obtain ⟨t, f2⟩ := find_hsla w x y z al hw hx hy hz ha1 (.inl ha2)
  obtain ⟨g1, g2, g3, g4⟩ := get1234 t x y z al
  unfold strToColor
  rw [if_neg (by rw [e]; simp), if_neg (by rw [e]; simp)]
  simp only [funcColor, f1, f2, getHSLAColor, hslFragments_num g1 g2 g3 hx hy hz, g4, alphaVal_parse F64.rnd ha]
  by_cases hf : F64.fits (F64.rnd (digitsVal x)) ∧ F64.fits (F64.rnd (digitsVal y)) ∧ F64.fits (F64.rnd (digitsVal z))
  · simp only [if_pos hf]
    by_cases hq : F64.fits (F64.rnd q) = true
    · have := (F64.fits_rnd q).1 hq
      simp only [if_pos hq]
      rw [newHSL_nat]
      by_cases h : digitsVal x ≤ 360 ∧ digitsVal y ≤ 100 ∧ digitsVal z ≤ 100
      · rw [if_pos h, if_pos ⟨h.1, h.2.1, h.2.2, this⟩]
      · rw [if_neg h, if_neg (by tauto)]
    · simp only [if_neg hq]
      rw [if_neg (fun h => hq ((F64.fits_rnd q).2 h.2.2.2))]
  · simp only [if_neg hf]
    rw [if_neg (fun h => hf ⟨fits_small (by omega), fits_small (by omega), fits_small (by omega)⟩)]

/-! ### Everything else is an error -/

theorem comma_lang {a rest : List Char} {caps : Caps} (h : reComma.Lang a rest caps) :
    ∃ v u, Ws v ∧ Ws u ∧ a = v ++ ',' :: u ∧ caps = [] := by
  obtain ⟨x, y, c1, c2, e, ⟨h1, e1⟩, ⟨x', y', c1', c2', e', ⟨c, e3, hc, e4⟩, ⟨h2, e2⟩, e5⟩, e6⟩ := h
  simp at hc
  exact ⟨x, y', ws_of_isSpace h1, ws_of_isSpace h2, by rw [e, e', e3, hc]; rfl, by rw [e6, e5, e1, e2, e4]; rfl⟩

theorem num_lang {i : Nat} {a rest : List Char} {caps : Caps} (h : (reNum i).Lang a rest caps) :
    Num a ∧ caps = [(i, a)] := by
  obtain ⟨c, ⟨h1, h2, h3⟩, e⟩ := h
  exact ⟨⟨h1, fun c hc => by rw [← isDig_iff]; exact h2 c hc⟩, by rw [e, h3]⟩

theorem close_lang {a rest : List Char} {caps : Caps} (h : reClose.Lang a rest caps) :
    ∃ v, Ws v ∧ a = v ++ [')'] := by
  obtain ⟨x, y, c1, c2, e, ⟨h1, e1⟩, ⟨c, e3, hc, e4⟩, e6⟩ := h
  simp at hc
  exact ⟨x, ws_of_isSpace h1, by rw [e, e3, hc]⟩

theorem ws_lang {a rest : List Char} {caps : Caps} (h : reWs.Lang a rest caps) : Ws a := ws_of_isSpace h.1

theorem pctComma_lang {a rest : List Char} {caps : Caps} (h : rePctComma.Lang a rest caps) :
    ∃ v u, Ws v ∧ Ws u ∧ a = '%' :: (v ++ ',' :: u) := by
  obtain ⟨x, y, c1, c2, e, ⟨c, e3, hc, e4⟩, h2, e6⟩ := h
  obtain ⟨v, u, hv, hu, e7, _⟩ := comma_lang h2
  simp at hc
  exact ⟨v, u, hv, hu, by rw [e, e3, hc, e7]; rfl⟩

theorem alpha_lang {i : Nat} {a rest : List Char} {caps : Caps} (h : (reAlpha i).Lang a rest caps) : AlphaText a := by
  obtain ⟨c, ⟨x, y, c1, c2, e, ⟨h1, _⟩, ⟨x', y', c1', c2', e', h3, ⟨h4, _⟩, _⟩, _⟩, _⟩ := h
  have d1 : ∀ c ∈ x, c.isDigit = true := fun c hc => by rw [← isDig_iff]; exact h1 c hc
  have d2 : ∀ c ∈ y', c.isDigit = true := fun c hc => by rw [← isDig_iff]; exact h4 c hc
  rcases h3 with ⟨c, e3, hc, _⟩ | ⟨e3, _⟩
  · simp at hc
    have : a = x ++ '.' :: y' := by rw [e, e', e3, hc]; rfl
    rw [this]; exact .point x y' d1 d2
  · have : a = x ++ y' := by rw [e, e', e3]; rfl
    rw [this]
    refine .int _ ?_
    intro c hc
    rcases List.mem_append.1 hc with h | h
    · exact d1 c h
    · exact d2 c h

/-- A colour function call: `rgb(n,n,n)`, `rgba(n,n,n,a)`, `hsl(n,n%,n%)` or `hsla(n,n%,n%,a)`. -/
inductive ColourCall : List Char → Prop
  | rgb (w x y z) (hw : ∀ i, Ws (w i)) (hx : Num x) (hy : Num y) (hz : Num z) :
      ColourCall (callText "rgb".toList w x y z)
  | rgba (w x y z al) (hw : ∀ i, Ws (w i)) (hx : Num x) (hy : Num y) (hz : Num z) (ha : AlphaText al) :
      ColourCall (callText4 "rgba".toList w x y z al)
  | hsl (w x y z) (hw : ∀ i, Ws (w i)) (hx : Num x) (hy : Num y) (hz : Num z) :
      ColourCall (callText "hsl".toList w x (y ++ ['%']) (z ++ ['%']))
  | hsla (w x y z al) (hw : ∀ i, Ws (w i)) (hx : Num x) (hy : Num y) (hz : Num z) (ha : AlphaText al) :
      ColourCall (callText4 "hsla".toList w x (y ++ ['%']) (z ++ ['%']) al)

theorem fin6 {P : List Char → Prop} {a b c d e f : List Char} (ha : P a) (hb : P b) (hc : P c) (hd : P d) (he : P e)
    (hf : P f) : ∀ i : Fin 6, P (![a, b, c, d, e, f] i) := by
  intro i
  fin_cases i <;> assumption

theorem fin8 {P : List Char → Prop} {a b c d e f g h : List Char} (ha : P a) (hb : P b) (hc : P c) (hd : P d)
    (he : P e) (hf : P f) (hg : P g) (hh : P h) : ∀ i : Fin 8, P (![a, b, c, d, e, f, g, h] i) := by
  intro i
  fin_cases i <;> assumption

theorem rgb_lang {a rest : List Char} {caps : Caps} (h : reRGB.Lang a rest caps) : ColourCall a := by
  obtain ⟨_, _, _, _, e, hl, ⟨_, _, _, _, e1, h1, ⟨_, _, _, _, e2, h2, ⟨_, _, _, _, e3, h3, ⟨_, _, _, _, e4, h4,
    ⟨_, _, _, _, e5, h5, ⟨_, _, _, _, e6, h6, h7, _⟩, _⟩, _⟩, _⟩, _⟩, _⟩, _⟩ := h
  obtain ⟨rfl, _⟩ := lit_lang _ _ _ _ (by simp) hl
  obtain ⟨v1, v2, w1, w2, rfl, _⟩ := comma_lang h3
  obtain ⟨v3, v4, w3, w4, rfl, _⟩ := comma_lang h5
  obtain ⟨v5, w5, rfl⟩ := close_lang h7
  have := ColourCall.rgb _ _ _ _ (fin6 (ws_lang h1) w1 w2 w3 w4 w5) (num_lang h2).1 (num_lang h4).1 (num_lang h6).1
  rw [e, e1, e2, e3, e4, e5, e6]
  simpa [callText] using this

theorem hsl_lang {a rest : List Char} {caps : Caps} (h : reHSL.Lang a rest caps) : ColourCall a := by
  obtain ⟨_, _, _, _, e, hl, ⟨_, _, _, _, e1, h1, ⟨_, _, _, _, e2, h2, ⟨_, _, _, _, e3, h3, ⟨_, _, _, _, e4, h4,
    ⟨_, _, _, _, e5, h5, ⟨_, _, _, _, e6, h6, ⟨_, _, _, _, e7, ⟨c, e8, hc, _⟩, h7, _⟩, _⟩, _⟩, _⟩, _⟩, _⟩, _⟩, _⟩ := h
  obtain ⟨rfl, _⟩ := lit_lang _ _ _ _ (by simp) hl
  obtain ⟨v1, v2, w1, w2, rfl, _⟩ := comma_lang h3
  obtain ⟨v3, v4, w3, w4, rfl⟩ := pctComma_lang h5
  obtain ⟨v5, w5, rfl⟩ := close_lang h7
  simp at hc
  have := ColourCall.hsl _ _ _ _ (fin6 (ws_lang h1) w1 w2 w3 w4 w5) (num_lang h2).1 (num_lang h4).1 (num_lang h6).1
  rw [e, e1, e2, e3, e4, e5, e6, e7, e8, hc]
  simpa [callText] using this

theorem rgba_lang {a rest : List Char} {caps : Caps} (h : reRGBA.Lang a rest caps) : ColourCall a := by
  obtain ⟨_, _, _, _, e, hl, ⟨_, _, _, _, e1, h1, ⟨_, _, _, _, e2, h2, ⟨_, _, _, _, e3, h3, ⟨_, _, _, _, e4, h4,
    ⟨_, _, _, _, e5, h5, ⟨_, _, _, _, e6, h6, ⟨_, _, _, _, e7, h7, ⟨_, _, _, _, e8, h8, h9, _⟩, _⟩, _⟩, _⟩, _⟩, _⟩, _⟩,
    _⟩, _⟩ := h
  obtain ⟨rfl, _⟩ := lit_lang _ _ _ _ (by simp) hl
  obtain ⟨v1, v2, w1, w2, rfl, _⟩ := comma_lang h3
  obtain ⟨v3, v4, w3, w4, rfl, _⟩ := comma_lang h5
  obtain ⟨v5, v6, w5, w6, rfl, _⟩ := comma_lang h7
  obtain ⟨v7, w7, rfl⟩ := close_lang h9
  have := ColourCall.rgba _ _ _ _ _ (fin8 (ws_lang h1) w1 w2 w3 w4 w5 w6 w7) (num_lang h2).1 (num_lang h4).1
    (num_lang h6).1 (alpha_lang h8)
  rw [e, e1, e2, e3, e4, e5, e6, e7, e8]
  simpa [callText4] using this

theorem hsla_lang {a rest : List Char} {caps : Caps} (h : reHSLA.Lang a rest caps) : ColourCall a := by
  obtain ⟨_, _, _, _, e, hl, ⟨_, _, _, _, e1, h1, ⟨_, _, _, _, e2, h2, ⟨_, _, _, _, e3, h3, ⟨_, _, _, _, e4, h4,
    ⟨_, _, _, _, e5, h5, ⟨_, _, _, _, e6, h6, ⟨_, _, _, _, e7, h7, ⟨_, _, _, _, e8, h8, h9, _⟩, _⟩, _⟩, _⟩, _⟩, _⟩, _⟩,
    _⟩, _⟩ := h
  obtain ⟨rfl, _⟩ := lit_lang _ _ _ _ (by simp) hl
  obtain ⟨v1, v2, w1, w2, rfl, _⟩ := comma_lang h3
  obtain ⟨v3, v4, w3, w4, rfl⟩ := pctComma_lang h5
  obtain ⟨v5, v6, w5, w6, rfl⟩ := pctComma_lang h7
  obtain ⟨v7, w7, rfl⟩ := close_lang h9
  have := ColourCall.hsla _ _ _ _ _ (fin8 (ws_lang h1) w1 w2 w3 w4 w5 w6 w7) (num_lang h2).1 (num_lang h4).1
    (num_lang h6).1 (alpha_lang h8)
  rw [e, e1, e2, e3, e4, e5, e6, e7, e8]
  simpa [callText4] using this

/-- A non-empty string that neither starts with `#` nor contains a colour function call is an error, and no
colour string of any kind panics. -/
theorem C53_otherwise_error (rnd : ℚ → ℚ) (s : List Char) (alpha : Nat) (h0 : s ≠ []) (h1 : s.head? ≠ some '#')
    (h : ¬ ∃ pre a post, s = pre ++ a ++ post ∧ ColourCall a) : strToColor rnd s alpha = .error .err := by
  have key : ∀ r : Re, (∀ a rest caps, r.Lang a rest caps → ColourCall a) → r.find s = none := by
    intro r hr
    cases hf : r.find s with
    | none => rfl
    | some x =>
      obtain ⟨pre, a, post, caps, e, hl, _⟩ := find_sound r s x hf
      exact absurd ⟨pre, a, post, e, hr a post caps hl⟩ h
  unfold strToColor
  rw [if_neg h0, if_neg h1]
  simp only [funcColor, key reHSL (fun _ _ _ => hsl_lang), key reHSLA (fun _ _ _ => hsla_lang),
    key reRGB (fun _ _ _ => rgb_lang), key reRGBA (fun _ _ _ => rgba_lang)]

theorem C53_no_panic (rnd : ℚ → ℚ) (s : List Char) (alpha : Nat) : strToColor rnd s alpha ≠ .error .panic := by
  have u8 : ∀ s, parseUint8 s ≠ .error .panic := by
    intro s; unfold parseUint8; repeat' split
    all_goals simp
  have hxf : ∀ s, hexFragments s ≠ .error .panic := by
    intro s; unfold hexFragments; repeat' split
    all_goals simp
  have rf : ∀ m, rgbFragments m ≠ .error .panic := by
    intro m; unfold rgbFragments
    repeat' split
    all_goals first | (simp; done) | (rename_i e h; intro h'; exact u8 _ (h.trans (by simpa using h')))
  have hf : ∀ m, hslFragments rnd m ≠ .error .panic := by
    intro m; unfold hslFragments; repeat' split
    all_goals simp
  have nh : ∀ h s l a, newHSLColor h s l a ≠ .error .panic := by
    intro h s l a; unfold newHSLColor; repeat' split
    all_goals simp
  unfold strToColor
  split
  · simp
  · split
    · unfold getHexColor
      split
      · simp
      · split
        · rename_i e h; intro h'; exact hxf _ (h.trans (by simpa using h'))
        · simp
    · unfold funcColor
      split
      · unfold getHSLColor
        split
        · rename_i e h; intro h'; exact hf _ (h.trans (by simpa using h'))
        · exact nh _ _ _ _
      · split
        · unfold getHSLAColor
          split
          · rename_i e h; intro h'; exact hf _ (h.trans (by simpa using h'))
          · split
            · simp
            · exact nh _ _ _ _
        · split
          · unfold getRGBColor
            split
            · rename_i e h; intro h'; exact rf _ (h.trans (by simpa using h'))
            · simp
          · split
            · unfold getRGBAColor
              split
              · rename_i e h; intro h'; exact rf _ (h.trans (by simpa using h'))
              · split <;> simp
            · simp

/-- The patterns are not anchored: text around a call is ignored. -/
example : strToColor F64.rnd "xx rgb( 1 ,2,  255) junk".toList 255 = .ok (.rgba 1 2 255 (some 255)) ∧
    strToColor F64.rnd "rgb(1,2,256)".toList 255 = .error .err ∧
    strToColor F64.rnd "rgba(1,2,3,0.5)".toList 255 = .ok (.rgba 1 2 3 (some 127)) ∧
    strToColor F64.rnd "hsl(120, 100%, 25%)".toList 255 = .ok (.hsl 120 1 (1 / 4) (some 255)) := by decide +kernel
example : AlphaVal "0.5".toList (1 / 2) := by
  have := AlphaVal.point ['0'] ['5'] (by simp) (by decide) (by decide)
  rw [show ((digitsVal (['0'] ++ ['5']) : ℕ) : ℚ) / 10 ^ ['5'].length = 1 / 2 by
    rw [show digitsVal (['0'] ++ ['5']) = 5 by decide]; norm_num] at this
  exact this

end Verif.Style
