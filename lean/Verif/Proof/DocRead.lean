import Verif.Spec.DocRead
import Verif.Proof.JsonText
import Verif.Proof.Float64

/-! # Lemmas about which documents are accepted -/

namespace Verif.DocRead

open Verif.Doc Verif.JText Verif.Go

/-! ### Whole numbers -/

theorem digit_range {c : Char} : ('0' ≤ c ∧ c ≤ '9') ↔ 48 ≤ c.toNat ∧ c.toNat ≤ 57 := by
  rw [Char.le_def, Char.le_def, UInt32.le_iff_toNat_le, UInt32.le_iff_toNat_le]; exact Iff.rfl

theorem decimal_from (l : Str) (n : Nat) : l.foldl (fun n c => 10 * n + (c.toNat - '0'.toNat)) n ≥ n := by
  induction l generalizing n with
  | nil => exact le_refl _
  | cons c l ih =>
    rw [List.foldl_cons]
    exact le_trans (by omega) (ih _)

theorem parseDigits_iff : ∀ (l : Str) (n v : Nat), n < 18446744073709551616 →
    (parseDigits false 10 l n = .ok v ↔ (∀ c ∈ l, '0' ≤ c ∧ c ≤ '9') ∧
      l.foldl (fun n c => 10 * n + (c.toNat - '0'.toNat)) n = v ∧ v < 18446744073709551616)
  | [], n, v, hn => by
    simp only [parseDigits, Except.ok.injEq, List.not_mem_nil, false_implies, implies_true, List.foldl_nil, true_and]
    constructor
    · rintro rfl; exact ⟨rfl, hn⟩
    · exact fun h => h.1
  | c :: l, n, v, hn => by
    simp only [parseDigits, Bool.false_eq_true, and_false, if_false]
    by_cases hc : '0' ≤ c ∧ c ≤ '9'
    · have hv : digitVal c = some (c.toNat - 48) := by unfold digitVal; rw [if_pos hc]
      have hr := digit_range.mp hc
      rw [hv]
      simp only
      rw [if_neg (by omega)]
      have he : n * 10 + (c.toNat - 48) = 10 * n + (c.toNat - '0'.toNat) := by
        rw [show '0'.toNat = 48 from rfl]; omega
      by_cases hb : n * 10 + (c.toNat - 48) ≥ 18446744073709551616
      · rw [if_pos hb]
        simp only [reduceCtorEq, false_iff, not_and]
        rintro _ h3
        rw [List.foldl_cons] at h3
        have := decimal_from l (10 * n + (c.toNat - '0'.toNat))
        omega
      · rw [if_neg hb, parseDigits_iff l _ v (by omega), he]
        simp only [List.mem_cons, forall_eq_or_imp, List.foldl_cons]
        tauto
    · have : ∀ d, digitVal c = some d → 10 ≤ d := by
        intro d hd
        unfold digitVal at hd
        rw [if_neg hc] at hd
        split at hd
        · cases hd; omega
        · cases hd
      have hfalse : ¬ ((∀ x ∈ c :: l, '0' ≤ x ∧ x ≤ '9') ∧
          (c :: l).foldl (fun n c => 10 * n + (c.toNat - '0'.toNat)) n = v ∧ v < 18446744073709551616) :=
        fun h => hc (h.1 c (by simp))
      cases hd : digitVal c with
      | none =>
        simp only [reduceCtorEq, false_iff]
        exact hfalse
      | some d =>
        simp only
        rw [if_pos (this d hd)]
        simp only [reduceCtorEq, false_iff]
        exact hfalse

theorem parseUint_iff (l : Str) (n : Nat) : parseUint l 10 = .ok n ↔ Writes l n ∧ n < 18446744073709551616 := by
  unfold parseUint Writes Digits
  by_cases hl : l = []
  · simp [hl]
  · rw [if_neg hl]
    simp only [Nat.reduceEqDiff, if_false, Nat.reduceBEq, false_and]
    have := parseDigits_iff l 0 n (by norm_num)
    cases hp : parseDigits false 10 l 0 with
    | error e =>
      rw [hp] at this
      simp only [reduceCtorEq, false_iff] at this ⊢
      exact fun h => this ⟨h.1.1.2, h.1.2, h.2⟩
    | ok v =>
      rw [hp] at this
      simp only [Except.ok.injEq] at this ⊢
      rw [this]
      unfold decimal
      tauto

theorem parseUint_error {l : Str} {e : NumError} {n : Nat} (h : parseUint l 10 = .error (e, n)) :
    (e = .syntax ∨ (e = .range ∧ n = 18446744073709551615)) := by
  have key : ∀ (l : Str) (m : Nat), parseDigits false 10 l m = .error (e, n) → (e = .syntax ∨ (e = .range ∧ n = 18446744073709551615)) := by
    intro l
    induction l with
    | nil => intro m h; simp [parseDigits] at h
    | cons c l ih =>
      intro m h
      simp only [parseDigits, Bool.false_eq_true, and_false, if_false] at h
      cases hd : digitVal c with
      | none => rw [hd] at h; simp only [Except.error.injEq, Prod.mk.injEq] at h; exact Or.inl h.1.symm
      | some d =>
        rw [hd] at h
        simp only at h
        split at h
        · simp only [Except.error.injEq, Prod.mk.injEq] at h; exact Or.inl h.1.symm
        · split at h
          · simp only [Except.error.injEq, Prod.mk.injEq] at h; exact Or.inr ⟨h.1.symm, h.2.symm⟩
          · exact ih _ h
  unfold parseUint at h
  split at h
  · simp only [Except.error.injEq, Prod.mk.injEq] at h; exact Or.inl h.1.symm
  · simp only [Nat.reduceEqDiff, if_false, Nat.reduceBEq, false_and] at h
    cases hp : parseDigits false 10 l 0 with
    | error x =>
      rw [hp] at h
      simp only [Except.error.injEq] at h
      subst h
      exact key _ _ hp
    | ok v => rw [hp] at h; cases h

/-- The unsigned part of `ParseInt`. -/
theorem parseInt_split (l : Str) (hp : l.head? ≠ some '+') (z : Int) : parseInt l 10 = .ok z ↔
    (∃ n, Writes l n ∧ n < 9223372036854775808 ∧ z = n) ∨
    ∃ d n, l = '-' :: d ∧ Writes d n ∧ n ≤ 9223372036854775808 ∧ z = -(n : Int) := by
  unfold parseInt
  by_cases hl : l = []
  · subst hl
    simp [Writes, Digits]
  rw [if_neg hl]
  by_cases hm : ∃ d, l = '-' :: d
  · obtain ⟨d, rfl⟩ := hm
    have hno : ¬ ∃ n, Writes ('-' :: d) n ∧ n < 9223372036854775808 ∧ z = n := by
      rintro ⟨n, ⟨⟨-, h⟩, -⟩, -⟩
      exact absurd (h '-' (by simp)) (by decide)
    simp only [hno, false_or, List.cons.injEq, true_and]
    cases hu : parseUint d 10 with
    | ok un =>
      have := (parseUint_iff d un).mp hu
      simp only [not_true, false_and, if_false, true_and, if_true]
      constructor
      · intro h
        split at h
        · cases h
        · simp only [Except.ok.injEq] at h
          exact ⟨d, un, rfl, this.1, by omega, h.symm⟩
      · rintro ⟨d', n, rfl, hw, hn, rfl⟩
        have : un = n := by rw [← this.1.2, hw.2]
        subst this
        rw [if_neg (by omega)]
    | error x =>
      obtain ⟨e, n⟩ := x
      have hnone : ¬ ∃ d_1 n, d = d_1 ∧ Writes d_1 n ∧ n ≤ 9223372036854775808 ∧ z = -(n : Int) := by
        rintro ⟨d', n', rfl, hw, hn, -⟩
        rw [(parseUint_iff d n').mpr ⟨hw, by omega⟩] at hu
        cases hu
      simp only [hnone, iff_false]
      rcases parseUint_error hu with rfl | ⟨rfl, rfl⟩
      · simp
      · simp
  · split
    rename_i neg ds heq
    have hsplit : neg = false ∧ ds = l := by
      split at heq
      · exact absurd rfl hp
      · exact absurd ⟨_, rfl⟩ hm
      · simp only [Prod.mk.injEq] at heq
        exact ⟨heq.1.symm, heq.2.symm⟩
    obtain ⟨rfl, rfl⟩ := hsplit
    have hno : ¬ ∃ d n, ds = '-' :: d ∧ Writes d n ∧ n ≤ 9223372036854775808 ∧ z = -(n : Int) := by
      rintro ⟨d, n, h, -⟩
      exact hm ⟨d, h⟩
    simp only [hno, or_false]
    cases hu : parseUint ds 10 with
    | ok un =>
      have := (parseUint_iff ds un).mp hu
      simp only [Bool.false_eq_true, not_false_eq_true, true_and, false_and, if_false]
      constructor
      · intro h
        split at h
        · cases h
        · simp only [Except.ok.injEq] at h
          exact ⟨un, this.1, by omega, h.symm⟩
      · rintro ⟨n, hw, hn, rfl⟩
        have : un = n := by rw [← this.1.2, hw.2]
        subst this
        rw [if_neg (by omega)]
    | error x =>
      obtain ⟨e, n⟩ := x
      have hnone : ¬ ∃ n, Writes ds n ∧ n < 9223372036854775808 ∧ z = (n : Int) := by
        rintro ⟨n', hw, hn, -⟩
        rw [(parseUint_iff ds n').mpr ⟨hw, by omega⟩] at hu
        cases hu
      simp only [hnone, iff_false]
      rcases parseUint_error hu with rfl | ⟨rfl, rfl⟩
      · simp
      · simp

/-! ### Numbers -/

theorem digitsOf {s : Str} : (∀ c ∈ s, '0' ≤ c ∧ c ≤ '9') ↔ ∀ c ∈ s, c.isDigit = true :=
  forall₂_congr fun c _ => (Doc.isDigit_iff c).symm

theorem exp_read {x : Str} {e : Int} (h : ExpVal x e) : parseExp x = some e := by
  rcases h with ⟨rfl, rfl⟩ | ⟨c, g, d, hc, rfl, hd, h⟩
  · rfl
  · have hd2 := digitsOf.mp hd.2
    have hrun : spanDigits d = (d, []) := by
      have := spanDigits_run d [] hd2 (by simp)
      rwa [List.append_nil] at this
    have hne := hd.1
    simp only [parseExp]
    rw [if_pos hc]
    rcases h with ⟨rfl | rfl, rfl⟩ | ⟨rfl, rfl⟩
    · have hs : spanSign ([] ++ d) = (false, d) := spanSign_of_digit (by
        intro c hc; exact hd2 c (List.mem_of_mem_head? hc))
      rw [hs]
      simp only [hrun]
      rw [if_neg (by simp [hne]), digitsVal_decimal]
      rfl
    · simp only [List.cons_append, List.nil_append, spanSign, hrun]
      rw [if_neg (by simp [hne]), digitsVal_decimal]
      rfl
    · simp only [List.cons_append, List.nil_append, spanSign, hrun]
      rw [if_neg (by simp [hne]), digitsVal_decimal]
      rfl

theorem exp_head {x : Str} {e : Int} (h : ExpVal x e) : ∀ c ∈ x.head?, c.isDigit = false ∧ c ≠ '.' := by
  rcases h with ⟨rfl, rfl⟩ | ⟨c, g, d, rfl | rfl, rfl, -⟩
  · simp
  · intro y hy
    simp only [List.head?_cons, Option.mem_def, Option.some.injEq] at hy
    subst hy; decide
  · intro y hy
    simp only [List.head?_cons, Option.mem_def, Option.some.injEq] at hy
    subst hy; decide

theorem decimal_append (a b : Str) : decimal (a ++ b) = decimal a * 10 ^ b.length + decimal b := by
  rw [← digitsVal_decimal, ← digitsVal_decimal, ← digitsVal_decimal, digitsVal_append]

/-- A JSON number is read as the number it writes, rounded. -/
theorem num_read {l : Str} {q : ℚ} (rnd : ℚ → ℚ) (h : NumVal l q) : parseFloat rnd l = some (rnd q) := by
  obtain ⟨m, i, f, x, e, rfl, hm, hi, hf, hx, rfl⟩ := h
  have hi2 := digitsOf.mp hi.2
  have hf2 := digitsOf.mp hf
  have hhead : ∀ r : Str, spanSign (i ++ r) = (false, i ++ r) := fun r => spanSign_of_digit (by
    intro c hc
    cases i with
    | nil => exact absurd rfl hi.1
    | cons y i => simp only [List.cons_append, List.head?_cons, Option.mem_def, Option.some.injEq] at hc; exact hi2 c (by simp [hc]))
  have hsg : spanSign (m ++ (i ++ ((if f = [] then [] else '.' :: f) ++ x))) =
      (decide (m = ['-']), i ++ ((if f = [] then [] else '.' :: f) ++ x)) := by
    rcases hm with rfl | rfl
    · rw [List.nil_append, hhead]; rfl
    · rfl
  have hu : parseUFloat (i ++ ((if f = [] then [] else '.' :: f) ++ x)) =
      some (((decimal i : ℚ) + (decimal f : ℚ) / 10 ^ f.length) * (10 : ℚ) ^ e) := by
    have h1 : spanDigits (i ++ ((if f = [] then [] else '.' :: f) ++ x)) = (i, (if f = [] then [] else '.' :: f) ++ x) := by
      refine spanDigits_run _ _ hi2 ?_
      intro c hc
      split at hc
      · exact (exp_head hx c (by simpa using hc)).1
      · simp only [List.cons_append, List.head?_cons, Option.mem_def, Option.some.injEq] at hc
        subst hc; decide
    have fin : (digitsVal (i ++ f) : ℚ) / (10 ^ f.length : ℕ) * (10 : ℚ) ^ e =
        ((decimal i : ℚ) + (decimal f : ℚ) / 10 ^ f.length) * (10 : ℚ) ^ e := by
      congr 1
      rw [digitsVal_decimal, decimal_append]
      push_cast
      field_simp
    rw [← fin]
    unfold parseUFloat
    by_cases hfn : f = []
    · subst hfn
      rw [if_pos rfl, List.nil_append] at h1
      simp only [if_true, List.nil_append, h1]
      have hxe := exp_read hx
      rcases hx with ⟨rfl, rfl⟩ | ⟨c, g, d, rfl | rfl, rfl, -⟩
      · simp only [hxe]
        rw [if_neg (fun h => hi.1 h.1)]
      · rw [if_neg (fun h => hi.1 h.1)]
        simp [hxe]
      · rw [if_neg (fun h => hi.1 h.1)]
        simp [hxe]
    · rw [if_neg hfn, List.cons_append] at h1
      simp only [if_neg hfn, List.cons_append]
      simp only [h1]
      rw [spanDigits_run f x hf2 (fun c hc => (exp_head hx c hc).1)]
      simp only [exp_read hx]
      rw [if_neg (fun h => hi.1 h.1)]
  unfold parseFloat
  simp only [hsg, hu]
  rcases hm with rfl | rfl
  · simp
  · simp only [decide_true, if_true]
    congr 2
    ring

theorem numVal_unique {l : Str} {q q' : ℚ} (h : NumVal l q) (h' : NumVal l q') : q = q' := by
  have h1 := num_read id h
  have h2 := num_read id h'
  rw [h1] at h2
  simpa using h2

/-- A JSON number is read as the nearest float64, or refused. -/
theorem num_read64 {l : Str} {q : ℚ} (h : NumVal l q) :
    (InRange q → parse64 l = some (F64.rnd64 q)) ∧ (¬ InRange q → parse64 l = none) := by
  unfold parse64
  rw [num_read F64.rnd64 h]
  dsimp only
  constructor <;> intro hr
  · rw [if_pos ((F64.fits_iff q).2 hr)]
  · rw [if_neg (fun hc => hr ((F64.fits_iff q).1 hc))]

theorem finite_val {l : Str} {q : ℚ} (h : NumVal l q) : Finite l ↔ InRange q :=
  ⟨fun ⟨_, h1, h2⟩ => numVal_unique h1 h ▸ h2, fun h2 => ⟨q, h, h2⟩⟩

theorem number_val {l : Str} (h : Number l) : ∃ q, NumVal l q := by
  obtain ⟨m, i, f, x, hm, hi, hf, hx, rfl⟩ := h
  have hi' : Digits i := by
    rcases hi with rfl | hi
    · exact ⟨by simp, by simp⟩
    · exact hi.1
  have hx' : ∃ e, ExpVal x e := by
    rcases hx with rfl | ⟨c, g, d, hc, hg, hd, rfl⟩
    · exact ⟨0, Or.inl ⟨rfl, rfl⟩⟩
    · rcases hg with rfl | rfl | rfl
      · exact ⟨decimal d, Or.inr ⟨c, _, d, hc, rfl, hd, Or.inl ⟨Or.inl rfl, rfl⟩⟩⟩
      · exact ⟨decimal d, Or.inr ⟨c, _, d, hc, rfl, hd, Or.inl ⟨Or.inr rfl, rfl⟩⟩⟩
      · exact ⟨-(decimal d : Int), Or.inr ⟨c, _, d, hc, rfl, hd, Or.inr ⟨rfl, rfl⟩⟩⟩
  obtain ⟨e, he⟩ := hx'
  rcases hf with rfl | ⟨d, hd, rfl⟩
  · exact ⟨_, m, i, [], x, e, by simp, hm, hi', by simp, he, rfl⟩
  · exact ⟨_, m, i, d, x, e, by rw [if_neg hd.1], hm, hi', hd.2, he, rfl⟩

/-! ### Acceptance -/

/-- The codec accepts the values of a shape, whatever the variable holds; `I` is what all its values satisfy. -/
def Accepts {α : Type} (c : Codec α) (I : α → Prop) (P : J → Prop) : Prop :=
  I c.zero ∧ ∀ old, I old → ∀ j, Spelled j → I (c.dec old j).1 ∧ ((c.dec old j).2 = true ↔ P j)

theorem acc_str : Accepts strC (fun _ => True) Text :=
  ⟨trivial, fun old _ j _ => ⟨trivial, by cases j <;> simp [strC, Text]⟩⟩

theorem acc_uint {bits : Nat} (hb : bits ≤ 64) : Accepts (uintC bits) (fun _ => True) (Nat' (2 ^ bits)) := by
  refine ⟨trivial, fun old _ j _ => ⟨trivial, ?_⟩⟩
  have hpow : 2 ^ bits ≤ 18446744073709551616 := by
    have : 2 ^ bits ≤ 2 ^ 64 := Nat.pow_le_pow_right (by norm_num) hb
    simpa using this
  generalize hB : 2 ^ bits = B at hpow
  cases j with
  | num l =>
    simp only [uintC, Nat', hB]
    cases hp : parseUint l 10 with
    | error e =>
      simp only [Bool.false_eq_true, false_iff, not_exists, not_and]
      intro n hw hn
      rw [(parseUint_iff l n).mpr ⟨hw, lt_of_lt_of_le hn hpow⟩] at hp
      cases hp
    | ok v =>
      have hv := (parseUint_iff l v).mp hp
      simp only
      by_cases hlt : v < B
      · rw [if_pos hlt]
        simp only [true_iff]
        exact ⟨v, hv.1, hlt⟩
      · rw [if_neg hlt]
        simp only [Bool.false_eq_true, false_iff, not_exists, not_and]
        intro n hw hn
        rw [← hw.2, hv.1.2] at hn
        exact hlt hn
  | _ => simp [uintC, Nat']

theorem number_no_plus {l : Str} (h : Number l) : l.head? ≠ some '+' := by
  obtain ⟨c, t, rfl, hc⟩ := number_head h
  intro he
  simp only [List.head?_cons, Option.some.injEq] at he
  subst he
  rcases hc with hc | hc <;> exact absurd hc (by decide)

theorem acc_int : Accepts intC (fun _ => True) Int' := by
  refine ⟨trivial, fun old _ j hj => ⟨trivial, ?_⟩⟩
  cases j with
  | num l =>
    have hs := parseInt_split l (number_no_plus hj)
    simp only [intC, Int']
    rw [show (2 : ℕ) ^ 63 = 9223372036854775808 by norm_num]
    cases hp : parseInt l 10 with
    | error e =>
      simp only [Bool.false_eq_true, false_iff, not_or, not_exists, not_and]
      refine ⟨fun n hw hn => ?_, fun d n hl hw hn => ?_⟩
      · rw [(hs n).mpr (Or.inl ⟨n, hw, hn, rfl⟩)] at hp; cases hp
      · rw [(hs (-(n : Int))).mpr (Or.inr ⟨d, n, hl, hw, hn, rfl⟩)] at hp; cases hp
    | ok v =>
      simp only [true_iff]
      rcases (hs v).mp hp with ⟨n, hw, hn, -⟩ | ⟨d, n, hl, hw, hn, -⟩
      · exact Or.inl ⟨n, hw, hn⟩
      · exact Or.inr ⟨d, n, hl, hw, hn⟩
  | _ => simp [intC, Int']

theorem acc_float (short : ℚ → Str) : Accepts (floatC short) (fun _ => True) Num := by
  refine ⟨trivial, fun old _ j hj => ⟨trivial, ?_⟩⟩
  cases j with
  | num l =>
    obtain ⟨q, hq⟩ := number_val (l := l) hj
    by_cases hr : InRange q
    · simp [floatC, Num, finite_val hq, (num_read64 hq).1 hr, hr]
    · simp [floatC, Num, finite_val hq, (num_read64 hq).2 hr, hr]
  | _ => simp [floatC, Num]

theorem acc_time : Accepts timeC (fun _ => True) Date := by
  refine ⟨trivial, fun old _ j _ => ⟨trivial, ?_⟩⟩
  cases j with
  | str s =>
    simp only [timeC, Date]
    cases hp : parseTime s with
    | none =>
      simp only [Bool.false_eq_true, false_iff, not_exists]
      intro t ht
      rw [parseTime_iff.mpr ht] at hp
      cases hp
    | some t =>
      simp only [true_iff]
      exact ⟨t, parseTime_iff.mp hp⟩
  | _ => simp [timeC, Date]

theorem acc_kind (addr : Bool) : Accepts (layerTypeC addr) (fun _ => True) Kind := by
  refine ⟨trivial, fun old _ j _ => ⟨trivial, ?_⟩⟩
  cases j with
  | str s =>
    simp only [layerTypeC, Kind, layerTypeIndex, Doc.layerTypeStrings]
    by_cases h1 : s = "baselayer".toList
    · subst h1
      simp [List.findIdx?_cons]
    · by_cases h2 : s = "overlay".toList
      · subst h2
        have : ("baselayer".toList == "overlay".toList) = false := by decide
        rw [List.findIdx?_cons, this]
        simp [List.findIdx?_cons]
      · have e1 : ("baselayer".toList == s) = false := by rw [beq_eq_false_iff_ne]; exact fun h => h1 h.symm
        have e2 : ("overlay".toList == s) = false := by rw [beq_eq_false_iff_ne]; exact fun h => h2 h.symm
        rw [List.findIdx?_cons, e1, List.findIdx?_cons, e2]
        simp only [List.findIdx?_nil, Option.map_none, Bool.false_eq_true, if_false, false_iff, not_or]
        exact ⟨h1, h2⟩
  | _ => simp [layerTypeC, Kind]

mutual
theorem dyn_ok : ∀ j : J, Spelled j → ((Dyn.dec j).2 = true ↔ Any j)
  | .null, _ => by simp [Dyn.dec, Any]
  | .bool _, _ => by simp [Dyn.dec, Any]
  | .num l, h => by
    obtain ⟨q, hq⟩ := number_val (l := l) (by simpa [Spelled] using h)
    by_cases hr : InRange q
    · simp [Dyn.dec, Any, finite_val hq, (num_read64 hq).1 hr, hr]
    · simp [Dyn.dec, Any, finite_val hq, (num_read64 hq).2 hr, hr]
  | .str _, _ => by simp [Dyn.dec, Any]
  | .arr l, h => by simpa only [Dyn.dec, Any] using dynL_ok l (by simpa [Spelled] using h)
  | .obj l, h => by simpa only [Dyn.dec, Any] using dynM_ok l [] (by simpa [Spelled] using h)
theorem dynL_ok : ∀ l : List J, SpelledL l → ((Dyn.decL l).2 = true ↔ AnyL l)
  | [], _ => by simp [Dyn.decL, AnyL]
  | j :: l, h => by
    simp only [SpelledL] at h
    simp only [Dyn.decL, AnyL, Bool.and_eq_true, dyn_ok j h.1, dynL_ok l h.2]
theorem dynM_ok : ∀ (l : List (Str × J)) (m : List (Str × Dyn)), SpelledM l → ((Dyn.decM m l).2 = true ↔ AnyM l)
  | [], _, _ => by simp [Dyn.decM, AnyM]
  | (k, j) :: l, m, h => by
    simp only [SpelledM] at h
    simp only [Dyn.decM, AnyM, Bool.and_eq_true, dyn_ok j h.1, dynM_ok l _ h.2]
end

theorem acc_any (short : ℚ → Str) : Accepts (anyC short) (fun _ => True) Any :=
  ⟨trivial, fun old _ j hj => ⟨trivial, by simp only [anyC, dyn_ok j hj]⟩⟩

theorem spelledL_mem : ∀ {l : List J}, SpelledL l → ∀ j ∈ l, Spelled j
  | [], _, j, h => by cases h
  | a :: l, hs, j, h => by
    simp only [SpelledL] at hs
    rcases List.mem_cons.mp h with rfl | h
    · exact hs.1
    · exact spelledL_mem hs.2 j h

theorem spelledM_mem : ∀ {l : List (Str × J)}, SpelledM l → ∀ m ∈ l, Spelled m.2
  | [], _, j, h => by cases h
  | a :: l, hs, j, h => by
    simp only [SpelledM] at hs
    rcases List.mem_cons.mp h with rfl | h
    · exact hs.1
    · exact spelledM_mem hs.2 j h

theorem acc_ptr {α : Type} {c : Codec α} {I : α → Prop} {P : J → Prop} (h : Accepts c I P) (hn : P .null) :
    Accepts (ptrC c) (fun o => ∀ a, o = some a → I a) P := by
  refine ⟨by simp [ptrC], fun old ho j hj => ?_⟩
  have hI : I (old.getD c.zero) := by
    cases old with
    | none => exact h.1
    | some a => exact ho a rfl
  have := h.2 _ hI j hj
  cases j with
  | null => exact ⟨by simp [ptrC], by simp [ptrC, hn]⟩
  | _ =>
    refine ⟨?_, this.2⟩
    intro a ha
    simp only [ptrC, Option.some.injEq] at ha
    rw [← ha]
    exact this.1

theorem acc_decList {α : Type} {c : Codec α} {I : α → Prop} {P : J → Prop} (h : Accepts c I P) :
    ∀ (js : List J) (old : List α), (∀ a ∈ old, I a) → (∀ j ∈ js, Spelled j) →
      (∀ a ∈ (decList c old js).1, I a) ∧ ((decList c old js).2 = true ↔ ∀ j ∈ js, P j)
  | [], old, _, _ => ⟨by cases old <;> simp [decList], by cases old <;> simp [decList]⟩
  | j :: js, [], _, hs => by
    have h1 := h.2 _ h.1 j (hs j (by simp))
    have h2 := acc_decList h js [] (by simp) (fun j hj => hs j (by simp [hj]))
    simp only [decList, List.mem_cons, forall_eq_or_imp, Bool.and_eq_true]
    exact ⟨⟨h1.1, h2.1⟩, and_congr h1.2 h2.2⟩
  | j :: js, o :: os, ho, hs => by
    have h1 := h.2 _ (ho o (by simp)) j (hs j (by simp))
    have h2 := acc_decList h js os (fun a ha => ho a (by simp [ha])) (fun j hj => hs j (by simp [hj]))
    simp only [decList, List.mem_cons, forall_eq_or_imp, Bool.and_eq_true]
    exact ⟨⟨h1.1, h2.1⟩, and_congr h1.2 h2.2⟩

theorem acc_slice {α : Type} {c : Codec α} {I : α → Prop} {P : J → Prop} (h : Accepts c I P) :
    Accepts (sliceC c) (fun o => ∀ l, o = some l → ∀ a ∈ l, I a) (ListOf P) := by
  refine ⟨by simp [sliceC], fun old ho j hj => ?_⟩
  cases j with
  | arr js =>
    simp only [Spelled] at hj
    have := acc_decList h js (old.getD []) (by
      cases old with
      | none => simp
      | some l => exact ho l rfl) (spelledL_mem hj)
    refine ⟨?_, this.2⟩
    intro l hl
    simp only [sliceC, Option.some.injEq] at hl
    rw [← hl]
    exact this.1
  | null => exact ⟨by simp [sliceC], by simp [sliceC, ListOf]⟩
  | _ => exact ⟨ho, by simp [sliceC, ListOf]⟩

theorem acc_decArr {α : Type} {c : Codec α} {I : α → Prop} {P : J → Prop} (h : Accepts c I P) :
    ∀ (old : List α) (js : List J), (∀ a ∈ old, I a) → (∀ j ∈ js, Spelled j) →
      (decArr c old js).1.length = old.length ∧ (∀ a ∈ (decArr c old js).1, I a) ∧
        ((decArr c old js).2 = true ↔ ∀ j ∈ js.take old.length, P j)
  | [], js, _, _ => by simp [decArr]
  | o :: os, [], ho, _ => by
    have h2 := acc_decArr h os [] (fun a ha => ho a (by simp [ha])) (by simp)
    simp only [decArr, List.length_cons, List.mem_cons, forall_eq_or_imp, List.take_nil, List.not_mem_nil, false_implies,
      implies_true, iff_true]
    exact ⟨by rw [h2.1], ⟨h.1, h2.2.1⟩, trivial⟩
  | o :: os, j :: js, ho, hs => by
    have h1 := h.2 _ (ho o (by simp)) j (hs j (by simp))
    have h2 := acc_decArr h os js (fun a ha => ho a (by simp [ha])) (fun j hj => hs j (by simp [hj]))
    simp only [decArr, List.length_cons, List.mem_cons, forall_eq_or_imp, List.take_succ_cons, Bool.and_eq_true]
    exact ⟨by rw [h2.1], ⟨h1.1, h2.2.1⟩, and_congr h1.2 h2.2.2⟩

theorem acc_array {α : Type} {c : Codec α} {I : α → Prop} {P : J → Prop} (n : Nat) (h : Accepts c I P) :
    Accepts (arrayC n c) (fun l => l.length = n ∧ ∀ a ∈ l, I a) (FirstOf n P) := by
  refine ⟨⟨by simp [arrayC], ?_⟩, fun old ho j hj => ?_⟩
  · intro a ha
    simp only [arrayC, List.mem_replicate] at ha
    rw [ha.2]; exact h.1
  cases j with
  | arr js =>
    simp only [Spelled] at hj
    have := acc_decArr h old js ho.2 (spelledL_mem hj)
    rw [ho.1] at this
    exact ⟨⟨this.1, this.2.1⟩, this.2.2⟩
  | null => exact ⟨ho, by simp [arrayC, FirstOf]⟩
  | _ => exact ⟨ho, by simp [arrayC, FirstOf]⟩

theorem mapSet_mem {α : Type} {k : Str} {v : α} : ∀ {m : List (Str × α)} {e : Str × α}, e ∈ mapSet k v m → e.2 = v ∨ e ∈ m
  | [], e, h => by
    simp only [mapSet, List.mem_singleton] at h
    subst h; exact Or.inl rfl
  | (k', v') :: r, e, h => by
    simp only [mapSet] at h
    split at h
    · rcases List.mem_cons.mp h with rfl | h
      · exact Or.inl rfl
      · exact Or.inr (by simp [h])
    · split at h
      · rcases List.mem_cons.mp h with rfl | h
        · exact Or.inl rfl
        · exact Or.inr h
      · rcases List.mem_cons.mp h with rfl | h
        · exact Or.inr (by simp)
        · rcases mapSet_mem h with h | h
          · exact Or.inl h
          · exact Or.inr (by simp [h])

theorem acc_decMap {α : Type} {c : Codec α} {I : α → Prop} {P : J → Prop} (h : Accepts c I P) :
    ∀ (ms : List (Str × J)) (old : List (Str × α)), (∀ a ∈ old, I a.2) → (∀ m ∈ ms, Spelled m.2) →
      (∀ a ∈ (decMap c old ms).1, I a.2) ∧ ((decMap c old ms).2 = true ↔ ∀ m ∈ ms, P m.2)
  | [], old, ho, _ => ⟨by simpa [decMap] using ho, by simp [decMap]⟩
  | (k, j) :: ms, old, ho, hs => by
    have h1 := h.2 _ h.1 j (hs (k, j) (by simp))
    have h2 := acc_decMap h ms (mapSet k (c.dec c.zero j).1 old) (by
      intro a ha
      rcases mapSet_mem ha with h | h
      · rw [h]; exact h1.1
      · exact ho a h) (fun j hj => hs j (by simp [hj]))
    simp only [decMap, List.mem_cons, forall_eq_or_imp, Bool.and_eq_true]
    exact ⟨h2.1, and_congr h1.2 h2.2⟩

theorem acc_map {α : Type} {c : Codec α} {I : α → Prop} {P : J → Prop} (h : Accepts c I P) :
    Accepts (mapC c) (fun o => ∀ l, o = some l → ∀ a ∈ l, I a.2) (MapOf P) := by
  refine ⟨by simp [mapC], fun old ho j hj => ?_⟩
  cases j with
  | obj ms =>
    simp only [Spelled] at hj
    have := acc_decMap h ms (old.getD []) (by
      cases old with
      | none => simp
      | some l => exact ho l rfl) (spelledM_mem hj)
    refine ⟨?_, this.2⟩
    intro l hl
    simp only [mapC, Option.some.injEq] at hl
    rw [← hl]
    exact this.1
  | null => exact ⟨by simp [mapC], by simp [mapC, MapOf]⟩
  | _ => exact ⟨ho, by simp [mapC, MapOf]⟩

/-- Every field accepts its shape. -/
inductive AccAll : {β : Type} → Rec β → (β → Prop) → List (String × (J → Prop)) → Prop
  | nil : AccAll .nil (fun _ => True) []
  | cons {α β : Type} {k : String} {om : Bool} {c : Codec α} {r : Rec β} {I : α → Prop} {P : J → Prop} {K : β → Prop}
      {fs : List (String × (J → Prop))} : Accepts c I P → AccAll r K fs →
      AccAll (.cons k.toList om c r) (fun v => I v.1 ∧ K v.2) ((k, P) :: fs)

theorem acc_decAll {α : Type} {c : Codec α} {I : α → Prop} {P : J → Prop} (h : Accepts c I P) :
    ∀ (js : List J) (old : α), I old → (∀ j ∈ js, Spelled j) →
      I (decAll c old js).1 ∧ ((decAll c old js).2 = true ↔ ∀ j ∈ js, P j)
  | [], old, ho, _ => by simp [decAll, ho]
  | j :: js, old, ho, hs => by
    have h1 := h.2 _ ho j (hs j (by simp))
    have h2 := acc_decAll h js _ h1.1 (fun j hj => hs j (by simp [hj]))
    simp only [decAll, List.mem_cons, forall_eq_or_imp, Bool.and_eq_true]
    exact ⟨h2.1, and_congr h1.2 h2.2⟩

theorem mem_valuesOf {k : Str} {ms : List (Str × J)} {j : J} : j ∈ valuesOf k ms ↔ ∃ m ∈ ms, fold m.1 = fold k ∧ m.2 = j := by
  unfold valuesOf
  simp only [List.mem_map, List.mem_filter, beq_iff_eq]
  constructor
  · rintro ⟨m, ⟨h1, h2⟩, h3⟩; exact ⟨m, h1, h2.symm, h3⟩
  · rintro ⟨m, h1, h2, h3⟩; exact ⟨m, ⟨h1, h2.symm⟩, h3⟩

theorem acc_gather {β : Type} {r : Rec β} {K : β → Prop} {fs : List (String × (J → Prop))} (h : AccAll r K fs) :
    K r.zero ∧ ∀ (v : β) (ms : List (Str × J)), K v → (∀ m ∈ ms, Spelled m.2) → K (r.gather v ms).1 ∧
      ((r.gather v ms).2 = true ↔ ∀ m ∈ ms, ∀ f ∈ fs, fold m.1 = fold f.1.toList → f.2 m.2) := by
  induction h with
  | nil => exact ⟨trivial, fun v ms _ _ => ⟨trivial, by simp [Rec.gather]⟩⟩
  | @cons α β k om c r I P K fs hc hr ih =>
    refine ⟨⟨hc.1, ih.1⟩, fun v ms hv hs => ?_⟩
    have h1 := acc_decAll hc (valuesOf k.toList ms) v.1 hv.1 (by
      intro j hj
      obtain ⟨m, hm, -, rfl⟩ := mem_valuesOf.mp hj
      exact hs m hm)
    have h2 := ih.2 v.2 ms hv.2 hs
    simp only [Rec.gather, Bool.and_eq_true]
    refine ⟨⟨h1.1, h2.1⟩, ?_⟩
    rw [h1.2, h2.2]
    simp only [List.mem_cons, forall_eq_or_imp]
    constructor
    · rintro ⟨ha, hb⟩ m hm
      exact ⟨fun hf => ha _ (mem_valuesOf.mpr ⟨m, hm, hf, rfl⟩), hb m hm⟩
    · intro h
      refine ⟨?_, fun m hm => (h m hm).2⟩
      intro j hj
      obtain ⟨m, hm, hf, rfl⟩ := mem_valuesOf.mp hj
      exact (h m hm).1 hf

theorem acc_struct {β : Type} {r : Rec β} {K : β → Prop} {fs : List (String × (J → Prop))} (hd : r.Distinct)
    (h : AccAll r K fs) : Accepts (structC r) K (Record fs) := by
  have hg := acc_gather h
  refine ⟨hg.1, fun old ho j hj => ?_⟩
  cases j with
  | obj ms =>
    simp only [Spelled] at hj
    simp only [structC, members_gather r hd]
    exact hg.2 old ms ho (spelledM_mem hj)
  | null => exact ⟨ho, by simp [structC, Record]⟩
  | _ => exact ⟨ho, by simp [structC, Record]⟩

theorem acc_iso {α β : Type} {c : Codec β} {K : β → Prop} {P : J → Prop} {split : α → β} {join : β → α}
    (hj : ∀ b, split (join b) = b) (h : Accepts c K P) : Accepts (c.iso split join) (fun a => K (split a)) P := by
  refine ⟨by simp only [Codec.iso, hj]; exact h.1, fun old ho j hs => ?_⟩
  simp only [Codec.iso, hj]
  exact h.2 _ ho j hs

theorem acc_read {α : Type} {c : Codec α} {I : α → Prop} {P : J → Prop} (h : Accepts c I P) {j : J} (hj : Spelled j) :
    (∃ v, c.read j = some v) ↔ P j := by
  rw [← (h.2 _ h.1 j hj).2]
  unfold Codec.read
  simp only
  split
  · rename_i h2; simp [h2]
  · rename_i h2; simp [h2]

end Verif.DocRead
