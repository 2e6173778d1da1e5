import Verif.Props.MbtilesMeta

/-!
# C82: metadata that is not well formed

Only the error of the last component of a list is reported; a bad component before it reads as zero.
The statements range over texts of digits, signs, points, `e`, `E`, commas and white space: `inf`, `nan`, underscores and
hexadecimal numerals, which `ParseFloat` knows, are not modelled.
-/
namespace Verif.Mbtiles
open Verif.Go Verif.Num

/-- Characters of decimal numbers and white space. -/
def Plain (t : List Char) : Prop := ∀ c ∈ t, ('0' ≤ c ∧ c ≤ '9') ∨ c ∈ ['+', '-', '.', 'e', 'E', ' ', '\t', '\n', '\r', '\x0b', '\x0c']

/-- `t` is a decimal number between white space. -/
def IsNumber (t : List Char) : Prop := ∃ s q, Spaced t s ∧ Decimal s q

/-- `t` is an integer of 64 bits between white space. -/
def IsInteger (t : List Char) : Prop := ∃ s n, Spaced t s ∧ IntNumeral s n ∧ IsI64 n

theorem spanDigits_parts (s : List Char) : s = (spanDigits s).1 ++ (spanDigits s).2 ∧ ∀ c ∈ (spanDigits s).1, c.isDigit = true := by
  induction s with
  | nil => simp [spanDigits]
  | cons c s ih =>
    rw [spanDigits]
    by_cases h : c.isDigit = true
    · rw [if_pos h]
      refine ⟨by rw [List.cons_append, ← ih.1], ?_⟩
      intro x hx
      rcases List.mem_cons.1 hx with rfl | hx
      · exact h
      · exact ih.2 x hx
    · rw [if_neg h]; simp

theorem spanSign_parts (s : List Char) : ∃ sg σ, s = sg ++ (spanSign s).2 ∧ Sign sg σ ∧ σ = if (spanSign s).1 then -1 else 1 := by
  unfold spanSign
  split
  · exact ⟨['+'], 1, rfl, .plus, rfl⟩
  · exact ⟨['-'], -1, rfl, .minus, rfl⟩
  · exact ⟨[], 1, rfl, .none, rfl⟩

theorem exponent_of_parseExp {s : List Char} {e : Int} (h : parseExp s = some e) : Exponent s e := by
  cases s with
  | nil => exact Or.inl ⟨rfl, by simpa [parseExp] using h.symm⟩
  | cons c r =>
    right
    rw [parseExp] at h
    by_cases hc : c = 'e' ∨ c = 'E'
    · rw [if_pos hc] at h
      obtain ⟨sg, σ, e1, e2, e3⟩ := spanSign_parts r
      obtain ⟨d1, d2⟩ := spanDigits_parts (spanSign r).2
      simp only at h
      by_cases hd : (spanDigits (spanSign r).2).1 = [] ∨ (spanDigits (spanSign r).2).2 ≠ []
      · rw [if_pos hd] at h; cases h
      · rw [if_neg hd] at h
        rw [not_or, not_not] at hd
        rw [hd.2, List.append_nil] at d1
        refine ⟨c, r, hc, rfl, sg, σ, (spanDigits (spanSign r).2).1, ?_, e2, hd.1, (digits10 _).2 d2, ?_⟩
        · rw [← d1]; exact e1
        · have : (if (spanSign r).1 then -(digitsVal (spanDigits (spanSign r).2).1 : Int) else digitsVal (spanDigits (spanSign r).2).1) = e := by
            simpa using h
          rw [← this, e3, value10_eq]
          cases (spanSign r).1 <;> simp
    · rw [if_neg hc] at h; cases h

theorem digitsVal_append (a b : List Char) : digitsVal (a ++ b) = digitsVal a * 10 ^ b.length + digitsVal b := by
  have key : ∀ (b : List Char) (n : Nat), b.foldl (fun n c => n * 10 + (c.toNat - 48)) n = n * 10 ^ b.length + b.foldl (fun n c => n * 10 + (c.toNat - 48)) 0 := by
    intro b
    induction b with
    | nil => intro n; simp
    | cons c b ih =>
      intro n
      rw [List.foldl_cons, List.foldl_cons, ih, ih (0 * 10 + (c.toNat - 48)), List.length_cons]
      ring
  unfold digitsVal
  rw [List.foldl_append, key]

/-- `parseUFloat` in parts. -/
theorem parseUFloat_shape (u : List Char) : ∃ b : List Char × List Char,
    ((∃ r, (spanDigits u).2 = '.' :: r ∧ b = spanDigits r) ∨ (spanDigits u).2.head? ≠ some '.' ∧ b = ([], (spanDigits u).2)) ∧
    parseUFloat u = if (spanDigits u).1 = [] ∧ b.1 = [] then none
      else match parseExp b.2 with
        | none => none
        | some e => some ((digitsVal ((spanDigits u).1 ++ b.1) : Rat) / (10 ^ b.1.length : Nat) * (10 : Rat) ^ e) := by
  refine ⟨_, ?_, rfl⟩
  split
  · rename_i r h
    exact Or.inl ⟨r, h, rfl⟩
  · rename_i h
    refine Or.inr ⟨?_, rfl⟩
    intro hh
    cases hs : (spanDigits u).2 with
    | nil => rw [hs] at hh; simp at hh
    | cons c r =>
      rw [hs] at hh
      obtain rfl : c = '.' := by simpa using hh
      exact h r hs

/-- `ParseFloat` accepts nothing but decimal numbers. -/
theorem decimal_of_parseFloat {rnd : ℚ → ℚ} {s : List Char} {v : ℚ} (h : parseFloat rnd s = some v) : ∃ q, Decimal s q ∧ v = rnd q := by
  obtain ⟨sg, σ, e1, e2, e3⟩ := spanSign_parts s
  unfold parseFloat at h
  simp only at h
  generalize (spanSign s).2 = u at *
  generalize (spanSign s).1 = neg at *
  cases hu : parseUFloat u with
  | none => rw [hu] at h; cases h
  | some w =>
    rw [hu] at h
    have hv : rnd (if neg then -w else w) = v := by simpa using h
    obtain ⟨d1, d2⟩ := spanDigits_parts u
    suffices hh : ∃ whole frac mid ex e, u = whole ++ (mid ++ ex) ∧ Digits10 whole ∧ Digits10 frac ∧
        (whole ≠ [] ∨ frac ≠ []) ∧ (mid = [] ∧ frac = [] ∨ mid = '.' :: frac) ∧ Exponent ex e ∧
        w = (value10 whole + value10 frac / 10 ^ frac.length : ℚ) * 10 ^ e by
      obtain ⟨whole, frac, mid, ex, e, f1, f2, f3, f4, f5, f6, f7⟩ := hh
      refine ⟨σ * (value10 whole + value10 frac / 10 ^ frac.length) * 10 ^ e, ⟨sg, σ, whole, frac, mid, ex, e, by rw [← f1]; exact e1, e2, f2, f3, f4, f5, f6, rfl⟩, ?_⟩
      rw [← hv, f7, e3]
      congr 1
      cases neg
      · simp
      · simp; ring
    have main : ∀ (whole frac mid ex : List Char), u = whole ++ (mid ++ ex) → (∀ c ∈ whole, c.isDigit = true) → (∀ c ∈ frac, c.isDigit = true) →
        (mid = [] ∧ frac = [] ∨ mid = '.' :: frac) →
        (if whole = [] ∧ frac = [] then none else match parseExp ex with
          | none => none
          | some e => some ((digitsVal (whole ++ frac) : Rat) / (10 ^ frac.length : Nat) * (10 : Rat) ^ e)) = some w →
        ∃ whole frac mid ex e, u = whole ++ (mid ++ ex) ∧ Digits10 whole ∧ Digits10 frac ∧
        (whole ≠ [] ∨ frac ≠ []) ∧ (mid = [] ∧ frac = [] ∨ mid = '.' :: frac) ∧ Exponent ex e ∧
        w = (value10 whole + value10 frac / 10 ^ frac.length : ℚ) * 10 ^ e := by
      intro whole frac mid ex g1 g2 g3 g4 g5
      by_cases hn : whole = [] ∧ frac = []
      · rw [if_pos hn] at g5; cases g5
      · rw [if_neg hn] at g5
        cases he : parseExp ex with
        | none => rw [he] at g5; cases g5
        | some e =>
          rw [he] at g5
          have g6 : (digitsVal (whole ++ frac) : Rat) / (10 ^ frac.length : Nat) * (10 : Rat) ^ e = w := by simpa using g5
          refine ⟨whole, frac, mid, ex, e, g1, (digits10 _).2 g2, (digits10 _).2 g3, by tauto, g4, exponent_of_parseExp he, ?_⟩
          rw [← g6, value10_eq, value10_eq, digitsVal_append]
          push_cast
          have : (10 : ℚ) ^ frac.length ≠ 0 := pow_ne_zero _ (by norm_num)
          field_simp
    obtain ⟨b, hb, e⟩ := parseUFloat_shape u
    rw [e] at hu
    rcases hb with ⟨r, h1, rfl⟩ | ⟨-, rfl⟩
    · obtain ⟨f1, f2⟩ := spanDigits_parts r
      refine main _ (spanDigits r).1 ('.' :: (spanDigits r).1) (spanDigits r).2 ?_ d2 f2 (Or.inr rfl) hu
      rw [List.cons_append, ← f1, ← h1]
      exact d1
    · exact main _ [] [] _ d1 d2 (by simp) (Or.inl ⟨rfl, rfl⟩) hu

theorem trim_space (c : Char) (h : isTrim c = true) : c ∈ [' ', '\t', '\n', '\r', '\x0b', '\x0c'] := by
  unfold isTrim at h
  simp only [Bool.or_eq_true, beq_iff_eq] at h
  simp only [List.mem_cons, List.not_mem_nil, or_false]
  tauto

theorem takeWhile_mem {p : Char → Bool} {l : List Char} {c : Char} (h : c ∈ l.takeWhile p) : p c = true := by
  induction l with
  | nil => simp at h
  | cons a l ih =>
    rw [List.takeWhile_cons] at h
    by_cases hp : p a = true
    · rw [if_pos hp] at h
      rcases List.mem_cons.1 h with rfl | h
      · exact hp
      · exact ih h
    · rw [if_neg hp] at h; simp at h

theorem spaced_trim (t : List Char) : Spaced t (trimSpace t) := by
  refine ⟨t.takeWhile isTrim, ((t.dropWhile isTrim).reverse.takeWhile isTrim).reverse, ?_, ?_⟩
  · unfold trimSpace
    rw [List.append_assoc, ← List.reverse_append, List.takeWhile_append_dropWhile, List.reverse_reverse, List.takeWhile_append_dropWhile]
  · intro c hc
    rcases List.mem_append.1 hc with h | h
    · exact trim_space c (takeWhile_mem h)
    · exact trim_space c (takeWhile_mem (List.mem_reverse.1 h))

/-- A component that `ParseFloat` accepts. -/
theorem parse_number {rnd : ℚ → ℚ} (p : List Char) : (∃ v, parseFloat rnd (trimSpace p) = some v) ↔ IsNumber p := by
  constructor
  · rintro ⟨v, h⟩
    obtain ⟨q, hq, -⟩ := decimal_of_parseFloat h
    exact ⟨_, q, spaced_trim p, hq⟩
  · rintro ⟨s, q, hs, hd⟩
    obtain ⟨c1, c2⟩ := decimal_chars hd
    exact ⟨rnd q, by rw [(trim_spaced p s hs c1 c2).1]; exact parseFloat_decimal rnd s q hd⟩

/-- The loop as a whole. -/
theorem floatsLoop_get (rnd : ℚ → ℚ) (parts : List (List Char)) : ∀ (i : Nat) (acc : List ℚ) (e : Bool) (r : List ℚ),
    floatsLoop rnd parts i acc e = .ok r →
    (∀ j, j < i → r[j]? = acc[j]?) ∧ (∀ j p, parts[j]? = some p → r[i + j]? = some ((parseFloat rnd (trimSpace p)).getD 0)) ∧
    (∀ p, parts.getLast? = some p → (parseFloat rnd (trimSpace p)).isSome) := by
  induction parts with
  | nil =>
    intro i acc e r h
    rw [floatsLoop] at h
    split at h
    · cases h
    · have : acc = r := by simpa using h
      subst this
      exact ⟨fun _ _ => rfl, by simp, by simp⟩
  | cons p ps ih =>
    intro i acc e r h
    rw [floatsLoop] at h
    by_cases hi : i < acc.length
    · rw [if_pos hi] at h
      have key : ∃ e', floatsLoop rnd ps (i + 1) (acc.set i ((parseFloat rnd (trimSpace p)).getD 0)) e' = .ok r ∧
          (ps = [] → (parseFloat rnd (trimSpace p)).isSome) := by
        split at h
        · rename_i q hq
          refine ⟨false, by rw [hq]; exact h, by rw [hq]; simp⟩
        · rename_i hq
          refine ⟨true, by rw [hq]; exact h, ?_⟩
          rintro rfl
          rw [floatsLoop] at h
          simp at h
      obtain ⟨e', h1, h2⟩ := key
      obtain ⟨k1, k2, k3⟩ := ih _ _ _ _ h1
      refine ⟨?_, ?_, ?_⟩
      · intro j hj
        rw [k1 j (by omega), List.getElem?_set_ne (by omega)]
      · intro j q hq
        cases j with
        | zero =>
          obtain rfl : p = q := by simpa using hq
          rw [Nat.add_zero, k1 i (by omega), List.getElem?_set_self hi]
        | succ j =>
          rw [show i + (j + 1) = i + 1 + j by omega]
          exact k2 j q (by simpa using hq)
      · intro q hq
        cases ps with
        | nil =>
          obtain rfl : p = q := by simpa using hq
          exact h2 rfl
        | cons p' ps' => exact k3 q (by simpa using hq)
    · rw [if_neg hi] at h; cases h

/-- The list in a text. -/
theorem split_commaSep (parts : List (List Char)) (hne : parts ≠ []) (hc : ∀ a ∈ parts, ',' ∉ a) : split ',' (commaSep parts) = parts := by
  rw [commaSep_join, split_join ',' parts hne hc]

theorem floats_malformed {rnd : ℚ → ℚ} (n : Nat) (parts : List (List Char)) (hne : parts ≠ []) (hc : ∀ a ∈ parts, ',' ∉ a) (r : List ℚ)
    (h : stringToFloats rnd n (commaSep parts) = .ok r) :
    (∀ p, parts.getLast? = some p → IsNumber p) ∧
    ∀ (i : Nat) p, parts[i]? = some p → (∀ s q, Spaced p s → Decimal s q → r[i]? = some (rnd q)) ∧ (¬ IsNumber p → r[i]? = some 0) := by
  unfold stringToFloats at h
  rw [split_commaSep parts hne hc] at h
  obtain ⟨-, k2, k3⟩ := floatsLoop_get rnd _ _ _ _ _ h
  refine ⟨fun p hp => (parse_number p).1 (Option.isSome_iff_exists.1 (k3 p hp)), ?_⟩
  intro i p hp
  have := k2 i p hp
  rw [Nat.zero_add] at this
  refine ⟨?_, ?_⟩
  · intro s q hs hd
    obtain ⟨c1, c2⟩ := decimal_chars hd
    rw [this, (trim_spaced p s hs c1 c2).1, parseFloat_decimal rnd s q hd]
    rfl
  · intro hn
    rw [this]
    cases hp' : parseFloat rnd (trimSpace p) with
    | none => rfl
    | some v => exact absurd ((parse_number (rnd := rnd) p).1 ⟨v, hp'⟩) hn

variable {LD : Type} {rnd : ℚ → ℚ} {cd : Codec LD}

/-- **C82.** A list of coordinates that is not well formed: `GetMetadata` fails if the last component is no number; a component before the
last that is no number reads as zero, and the others as what they say. -/
theorem C82_malformed_coordinates (rows : List (String × List Char)) (tiles : List TileRow) (m : Metadata LD)
    (h : getMetadata rnd cd rows tiles = .ok m) (parts : List (List Char)) (hne : parts ≠ []) (hc : ∀ a ∈ parts, ',' ∉ a) :
    (∀ r ∈ rows, (r.1 = "center" ∨ r.1 = "bounds") → r.2 = commaSep parts → r.2 ≠ [] →
      ∀ p, parts.getLast? = some p → Plain p → IsNumber p) ∧
    (given rows "center" = some (commaSep parts) → ∀ (i : Nat) p, parts[i]? = some p →
      (∀ s q, Spaced p s → Decimal s q → |q| ≤ 10 ^ 308 → m.center[i]? = some (rnd q)) ∧
      (Plain p → ¬ IsNumber p → m.center[i]? = some 0)) ∧
    (given rows "bounds" = some (commaSep parts) → ∀ (i : Nat) p, parts[i]? = some p →
      (∀ s q, Spaced p s → Decimal s q → |q| ≤ 10 ^ 308 → m.bounds[i]? = some (rnd q)) ∧
      (Plain p → ¬ IsNumber p → m.bounds[i]? = some 0)) := by
  have hcen := field_given (rnd := rnd) (cd := cd) (·.center) .center (fun v a => stringToFloats rnd 3 v = .ok a)
    (fun md v u hu => by
      obtain ⟨n, hn, hu⟩ := bindOk_inv hu
      have : Upd.center n = u := by simpa using hu
      subst this
      exact hn)
    (fun v hc => by obtain ⟨n, -, hu⟩ := bindOk_inv hc; simp at hu)
    (fun md u hu => by cases u <;> first | rfl | exact absurd rfl hu) (fun _ _ _ => rfl) h
  have hbnd := field_given (rnd := rnd) (cd := cd) (·.bounds) .bounds (fun v a => stringToFloats rnd 4 v = .ok a)
    (fun md v u hu => by
      obtain ⟨n, hn, hu⟩ := bindOk_inv hu
      have : Upd.bounds n = u := by simpa using hu
      subst this
      exact hn)
    (fun v hc => by obtain ⟨n, -, hu⟩ := bindOk_inv hc; simp at hu)
    (fun md u hu => by cases u <;> first | rfl | exact absurd rfl hu) (fun _ _ _ => rfl) h
  refine ⟨?_, ?_, ?_⟩
  · intro r hr hk hv hne' p hp _
    obtain ⟨md, h1, -⟩ := getMetadata_split h
    obtain ⟨o, ho⟩ := (putRows_iff rnd cd _ _).1 ⟨md, h1⟩ r (List.mem_filter.2 ⟨hr, by simpa using hne'⟩)
    obtain ⟨k, v⟩ := r
    simp only at hk hv
    subst hv
    rcases hk with rfl | rfl
    · obtain ⟨n, hn, -⟩ := bindOk_inv (show (stringToFloats rnd 3 (commaSep parts)).bind _ = _ from ho)
      exact (floats_malformed 3 parts hne hc n hn).1 p hp
    · obtain ⟨n, hn, -⟩ := bindOk_inv (show (stringToFloats rnd 4 (commaSep parts)).bind _ = _ from ho)
      exact (floats_malformed 4 parts hne hc n hn).1 p hp
  · intro hg i p hp
    rcases hcen with ⟨h1, _⟩ | ⟨v, h1, h2⟩
    · have h1' : given rows "center" = none := h1
      rw [hg] at h1'; cases h1'
    · have h1' : given rows "center" = some v := h1
      rw [hg] at h1'
      obtain rfl : commaSep parts = v := by simpa using h1'
      have := (floats_malformed 3 parts hne hc _ h2).2 i p hp
      exact ⟨fun s q a b _ => this.1 s q a b, fun _ => this.2⟩
  · intro hg i p hp
    rcases hbnd with ⟨h1, _⟩ | ⟨v, h1, h2⟩
    · have h1' : given rows "bounds" = none := h1
      rw [hg] at h1'; cases h1'
    · have h1' : given rows "bounds" = some v := h1
      rw [hg] at h1'
      obtain rfl : commaSep parts = v := by simpa using h1'
      have := (floats_malformed 4 parts hne hc _ h2).2 i p hp
      exact ⟨fun s q a b _ => this.1 s q a b, fun _ => this.2⟩

/-- **C82.** A resolution factor that is no number and not `sqrt2` is ignored. -/
theorem C82_malformed_res_factor (rows : List (String × List Char)) (tiles : List TileRow) (m : Metadata LD)
    (h : getMetadata rnd cd rows tiles = .ok m) (t : List Char) (hg : given rows "res_factor" = some t) (hp : Plain t) (hn : ¬ IsNumber t) :
    m.resFactor = .nil := by
  have hf := field_given (rnd := rnd) (cd := cd) (·.resFactor) .resFactor (fun v a => a = stringToResFactor rnd v)
    (fun md v u hu => by
      have : Upd.resFactor (stringToResFactor rnd v) = u := by simpa [parseRow, keyOf, keyName] using hu
      subst this; rfl)
    (fun v hc => by simp [parseRow, keyOf, keyName] at hc)
    (fun md u hu => by cases u <;> first | rfl | exact absurd rfl hu) (fun _ _ _ => rfl) h
  rcases hf with ⟨h1, _⟩ | ⟨v, h1, h2⟩
  · have h1' : given rows "res_factor" = none := h1
    rw [hg] at h1'; cases h1'
  · have h1' : given rows "res_factor" = some v := h1
    rw [hg] at h1'
    obtain rfl : t = v := by simpa using h1'
    rw [h2, stringToResFactor]
    have hs : t ≠ "sqrt2".toList := by
      rintro rfl
      have := hp 's' (by decide)
      revert this
      decide
    rw [if_neg hs]
    cases hq : parseFloat rnd (trimSpace t) with
    | none => rfl
    | some v => exact absurd ((parse_number (rnd := rnd) t).1 ⟨v, hq⟩) hn

/-- **C82.** A tile size whose last component is no integer of 64 bits makes `GetMetadata` fail. -/
theorem C82_malformed_tile_size (rows : List (String × List Char)) (tiles : List TileRow) (m : Metadata LD)
    (h : getMetadata rnd cd rows tiles = .ok m) (parts : List (List Char)) (hne : parts ≠ []) (hc : ∀ a ∈ parts, ',' ∉ a) :
    ∀ r ∈ rows, r.1 = "tile_size" → r.2 = commaSep parts → r.2 ≠ [] → ∀ p, parts.getLast? = some p → Plain p → IsInteger p := by
  intro r hr hk hv hne' p hp _
  obtain ⟨md, h1, -⟩ := getMetadata_split h
  obtain ⟨o, ho⟩ := (putRows_iff rnd cd _ _).1 ⟨md, h1⟩ r (List.mem_filter.2 ⟨hr, by simpa using hne'⟩)
  obtain ⟨k, v⟩ := r
  simp only at hk hv
  subst hv hk
  obtain ⟨n, hn, -⟩ := bindOk_inv (show (stringToTileSize (commaSep parts)).bind _ = _ from ho)
  unfold stringToTileSize at hn
  rw [split_commaSep parts hne hc] at hn
  have last : ∀ (x : List Char) (i : Nat) (acc : Int × Int) (b : Bool), sizeLoop [x] i acc b = .ok n → IsInteger x := by
    intro x i acc b hx
    rw [sizeLoop] at hx
    split at hx
    · rw [sizeLoop] at hx
      cases hq : parseInt (trimSpace x) 10 with
      | ok w =>
        have ha : atoi (trimSpace x) = .ok w := by unfold atoi; rw [hq]
        exact ⟨_, w, spaced_trim x, (atoi_iff _ _).1 ha⟩
      | error w => rw [hq] at hx; simp at hx
    · cases hx
  match parts, hne, hn, hp with
  | [a], _, hn, hp =>
    obtain rfl : a = p := by simpa using hp
    exact last a _ _ _ hn
  | [a, b], _, hn, hp =>
    obtain rfl : b = p := by simpa using hp
    rw [sizeLoop, if_pos (by omega)] at hn
    exact last b _ _ _ hn
  | a :: b :: c :: t, _, hn, hp =>
    rw [sizeLoop, if_pos (by omega)] at hn
    simp only at hn
    rw [sizeLoop, if_pos (by omega)] at hn
    simp only at hn
    rw [sizeLoop, if_neg (by omega)] at hn
    cases hn

/-- Not vacuous: an empty or broken west bound reads as 0 without an error; a broken north bound is an error. -/
theorem C82_malformed_example :
    (getMetadata id (⟨id, fun s => some (some s), fun _ s => some s⟩ : Codec (List Char)) [("maxzoom", "3".toList), ("bounds", "1e,-85,,85".toList)] []) =
      .ok { maxZoom := 3, bounds := [0, -85, 0, 85] } ∧
    (getMetadata id (⟨id, fun s => some (some s), fun _ s => some s⟩ : Codec (List Char)) [("maxzoom", "3".toList), ("bounds", "-180,-85,180,85e".toList)] []) = .err ∧
    Plain "1e".toList := by
  refine ⟨by decide +kernel, by decide +kernel, ?_⟩
  intro c hc
  have : c = '1' ∨ c = 'e' := by simpa using hc
  rcases this with rfl | rfl
  · left; decide
  · right; decide

end Verif.Mbtiles
