import Verif.Proof.Doc
import Verif.Spec.DocTime
import Mathlib.Data.List.TakeWhile

/-!
# Times in JSON documents
-/
namespace Verif.Doc

open Verif.Go

theorem lastDay_iff (year month d : Nat) (hm : 1 ≤ month ∧ month ≤ 12) : LastDay year month d ↔ d = daysIn month year := by
  have hleap : LeapYear year ↔ ((year % 4 = 0 ∧ year % 100 ≠ 0) ∨ year % 400 = 0) := by unfold LeapYear; omega
  unfold daysIn LastDay
  rw [hleap]
  split_ifs <;> omega

theorem LastDay.month {year month d : Nat} (h : LastDay year month d) : 1 ≤ month ∧ month ≤ 12 := by
  unfold LastDay at h
  omega

theorem exists_day {t : Time} (h : t.Exists) : 1 ≤ t.month ∧ t.month ≤ 12 ∧ 1 ≤ t.day ∧ t.day ≤ daysIn t.month t.year := by
  obtain ⟨h1, d, h2, h3⟩ := h.day
  have hm := h2.month
  rw [lastDay_iff _ _ _ hm] at h2
  exact ⟨hm.1, hm.2, h1, h2 ▸ h3⟩

theorem takeNum_pad (n v : Nat) (r : Str) (h : v < 10 ^ n) : takeNum n (digitsPad n v ++ r) = some (v, r) := by
  have hl := digitsPad_length n v
  have ht : (digitsPad n v ++ r).take n = digitsPad n v := by rw [List.take_left' hl]
  have hd : (digitsPad n v ++ r).drop n = r := by rw [List.drop_left' hl]
  unfold takeNum
  have ha : (digitsPad n v).all (·.isDigit) = true := by
    rw [List.all_eq_true]
    exact fun c hc => digitsPad_isDigit n v c hc
  rw [ht, hd, if_pos ⟨hl, ha⟩, digitsVal_pad n v h]

theorem takeField_pad (n v : Nat) (sep : Char) (r : Str) (h : v < 10 ^ n) :
    takeField n sep (digitsPad n v ++ sep :: r) = some (v, r) := by
  unfold takeField
  rw [takeNum_pad n v _ h]
  simp [takeChar]

theorem trimZeros_pad (l : Str) : ∃ k, l = trimZeros l ++ List.replicate k '0' := by
  unfold trimZeros
  have h := List.takeWhile_append_dropWhile (p := (· == '0')) (l := l.reverse)
  have hr : l = (l.reverse.dropWhile (· == '0')).reverse ++ (l.reverse.takeWhile (· == '0')).reverse := by
    rw [← List.reverse_append, h, List.reverse_reverse]
  refine ⟨(l.reverse.takeWhile (· == '0')).length, ?_⟩
  conv_lhs => rw [hr]
  congr 1
  rw [List.eq_replicate_iff]
  refine ⟨by simp, ?_⟩
  intro b hb
  rw [List.mem_reverse] at hb
  have := List.mem_takeWhile_imp hb
  simpa using this

theorem zone_head (off : Int) : ∃ ch r, zoneText off = ch :: r ∧ isPoint ch = false ∧ ch.isDigit = false := by
  unfold zoneText
  split
  · exact ⟨_, _, rfl, by decide, by decide⟩
  · split
    · exact ⟨_, _, rfl, by decide, by decide⟩
    · exact ⟨_, _, rfl, by decide, by decide⟩

theorem digitsVal_zeros (k : Nat) : digitsVal (List.replicate k '0') = 0 := by
  induction k with
  | zero => rfl
  | succ k ih => rw [List.replicate_succ', digitsVal_snoc, ih]; rfl

theorem takeFrac_text (nano : Nat) (off : Int) (h : nano < 10 ^ 9) :
    takeFrac (fracText nano ++ zoneText off) = (nano, zoneText off) := by
  obtain ⟨ch, r, hz, h1, h2⟩ := zone_head off
  unfold fracText
  by_cases h0 : nano = 0
  · rw [if_pos h0, List.nil_append, hz, h0]
    simp only [takeFrac]
    rw [if_pos (Or.inl h1)]
  · rw [if_neg h0, List.cons_append]
    obtain ⟨k, hk⟩ := trimZeros_pad (digitsPad 9 nano)
    have hdig : ∀ c ∈ trimZeros (digitsPad 9 nano), c.isDigit = true := by
      intro c hc
      apply digitsPad_isDigit 9 nano c
      rw [hk]; simp [hc]
    have hsp := spanDigits_run (trimZeros (digitsPad 9 nano)) (zoneText off) hdig (by
      rw [hz]; intro c hc; simp at hc; rw [← hc]; exact h2)
    have hlen : (trimZeros (digitsPad 9 nano)).length + k = 9 := by
      have := congrArg List.length hk
      rw [digitsPad_length, List.length_append, List.length_replicate] at this
      omega
    have hne : trimZeros (digitsPad 9 nano) ≠ [] := by
      intro he
      rw [he, List.nil_append] at hk
      have := digitsVal_pad 9 nano h
      rw [hk, digitsVal_zeros] at this
      exact h0 this.symm
    simp only [takeFrac, hsp]
    rw [if_neg (by rintro (h | h); exact absurd h (by decide); exact hne h)]
    refine Prod.ext ?_ rfl
    simp only
    have : (trimZeros (digitsPad 9 nano) ++ List.replicate 9 '0').take 9 = digitsPad 9 nano := by
      conv_rhs => rw [hk]
      have hk9 : 9 - (trimZeros (digitsPad 9 nano)).length = k := by omega
      have hmin : min k 9 = k := by omega
      rw [List.take_append, List.take_of_length_le (by omega), List.take_replicate, hk9, hmin]
    rw [this, digitsVal_pad 9 nano h]

theorem parseZone_text (off : Int) (h : off.natAbs < 1440) : parseZone (zoneText off) = some off := by
  unfold zoneText
  by_cases h0 : off = 0
  · rw [if_pos h0, h0]; rfl
  · rw [if_neg h0]
    have hne : ∀ sg : Char, sg :: (digitsPad 2 (off.natAbs / 60) ++ ':' :: digitsPad 2 (off.natAbs % 60)) ≠ ['Z'] := by
      intro sg he
      have := congrArg List.length he
      simp [digitsPad_length] at this
    have hp : ∀ sg : Char, (sg = '-' ∨ sg = '+') →
        parseZone (sg :: (digitsPad 2 (off.natAbs / 60) ++ ':' :: digitsPad 2 (off.natAbs % 60))) =
          some (if sg = '-' then -((off.natAbs / 60 * 60 + off.natAbs % 60 : Nat) : Int)
            else ((off.natAbs / 60 * 60 + off.natAbs % 60 : Nat) : Int)) := by
      intro sg hsg
      have hlast := takeNum_pad 2 (off.natAbs % 60) [] (by omega)
      rw [List.append_nil] at hlast
      rw [parseZone.eq_def]
      split
      · rename_i heq; exact absurd heq (hne sg)
      · rename_i heq
        cases heq
        rw [takeNum_pad 2 _ _ (by omega)]
        simp only [takeChar, if_true]
        rw [hlast]
        simp only
        rw [if_pos ⟨trivial, by omega, by omega, hsg⟩]
      · rename_i heq; cases heq
    have hmod : off.natAbs / 60 * 60 + off.natAbs % 60 = off.natAbs := by omega
    by_cases hneg : off < 0
    · rw [if_pos hneg, hp _ (Or.inl rfl), hmod, if_pos rfl]
      congr 1; omega
    · rw [if_neg hneg, hp _ (Or.inr rfl), hmod, if_neg (by decide)]
      congr 1; omega

theorem time_back (t : Time) (h : t.Valid) : ∃ s, t.text = some s ∧ parseTime s = some t := by
  have hd31 : daysIn t.month t.year ≤ 31 := by unfold daysIn; split_ifs <;> omega
  have hday := exists_day h.date
  have hho := h.date.hour
  have hmi := h.date.min
  have hse := h.date.sec
  have hye := h.date.year
  have hof := h.off
  refine ⟨_, by unfold Time.text; rw [if_neg (by omega)], ?_⟩
  unfold parseTime
  simp only [List.append_assoc, List.cons_append]
  rw [takeField_pad 4 _ _ _ (by omega)]
  simp only
  rw [takeField_pad 2 _ _ _ (by omega)]
  simp only
  rw [takeField_pad 2 _ _ _ (by omega)]
  simp only
  rw [show ∀ s, takeHour (digitsPad 2 t.hour ++ s) = some (t.hour, s) from fun s => by
    unfold takeHour; rw [takeNum_pad 2 _ _ (by omega)]]
  simp only [takeChar, if_true]
  rw [takeField_pad 2 _ _ _ (by omega)]
  simp only
  rw [takeNum_pad 2 _ _ (by omega)]
  simp only
  rw [if_pos ⟨hday.1, hday.2.1, hday.2.2.1, hday.2.2.2, hho, hmi, hse⟩, takeFrac_text _ _ h.date.nano, parseZone_text _ h.off]

theorem back_time {t : Time} (h : t.Valid) : BackV timeC t t := by
  obtain ⟨s, h1, h2⟩ := time_back t h
  exact ⟨.str s, by simp [timeC, h1], by simp, by simp [timeC, h2]⟩

theorem digitsVal_lt : ∀ (l : Str), (∀ c ∈ l, c.isDigit = true) → digitsVal l < 10 ^ l.length := by
  intro l
  induction l using List.reverseRecOn with
  | nil => intro _; decide
  | append_singleton l c ih =>
    intro h
    have h1 := ih (fun c hc => h c (by simp [hc]))
    have h2 : c.toNat - 48 < 10 := by
      have := digit_cases (h c (by simp))
      simp only [List.mem_cons, List.not_mem_nil, or_false] at this
      rcases this with h | h | h | h | h | h | h | h | h | h <;> subst h <;> decide
    rw [digitsVal_snoc, List.length_append, List.length_singleton, pow_succ]
    omega

theorem spanDigits_isDigit : ∀ (s : Str), ∀ c ∈ (spanDigits s).1, c.isDigit = true
  | [], c, h => by simp [spanDigits] at h
  | x :: s, c, h => by
    rw [spanDigits] at h
    split at h
    · rename_i hx
      rcases List.mem_cons.mp h with rfl | h
      · exact hx
      · exact spanDigits_isDigit s c h
    · simp at h

/-! ### The texts that are accepted -/

theorem isDigit_iff (c : Char) : c.isDigit = true ↔ '0' ≤ c ∧ c ≤ '9' := by
  simp only [Char.isDigit, Bool.and_eq_true, decide_eq_true_eq, ge_iff_le, Char.le_def]

theorem digitsVal_decimal (s : Str) : digitsVal s = decimal s := by
  unfold digitsVal decimal
  congr 1
  funext n c
  rw [Nat.mul_comm]; rfl

theorem takeNum_iff {n v : Nat} {s r : Str} : takeNum n s = some (v, r) ↔ ∃ d, s = d ++ r ∧ Digs n d v := by
  unfold takeNum Digs
  constructor
  · intro h
    split at h
    · rename_i hc
      simp only [Option.some.injEq, Prod.mk.injEq] at h
      refine ⟨s.take n, by rw [← h.2, List.take_append_drop], hc.1, ?_, by rw [← h.1, digitsVal_decimal]⟩
      intro c hm
      exact (isDigit_iff c).mp (List.all_eq_true.mp hc.2 c hm)
    · cases h
  · rintro ⟨d, rfl, h1, h2, h3⟩
    rw [List.take_left' h1, List.drop_left' h1, if_pos ⟨h1, List.all_eq_true.mpr fun c hc => (isDigit_iff c).mpr (h2 c hc)⟩,
      digitsVal_decimal, h3]

theorem takeChar_iff {ch : Char} {s r : Str} : takeChar ch s = some r ↔ s = ch :: r := by
  cases s with
  | nil => simp [takeChar]
  | cons x s =>
    simp only [takeChar]
    split
    · rename_i h; subst h; simp
    · rename_i h; simp [h]

theorem takeField_iff {n v : Nat} {sep : Char} {s r : Str} :
    takeField n sep s = some (v, r) ↔ ∃ d, s = d ++ sep :: r ∧ Digs n d v := by
  unfold takeField
  constructor
  · intro h
    split at h
    · cases h
    · rename_i h1
      split at h
      · cases h
      · rename_i h2
        cases h
        obtain ⟨d, rfl, hd⟩ := takeNum_iff.mp h1
        exact ⟨d, by rw [takeChar_iff.mp h2], hd⟩
  · rintro ⟨d, rfl, hd⟩
    rw [takeNum_iff.mpr ⟨d, rfl, hd⟩]
    simp [takeChar]

theorem takeHour_iff {v : Nat} {s r : Str} :
    (∃ q, takeHour s = some (v, q) ∧ takeChar ':' q = some r) ↔
      ∃ d, s = d ++ ':' :: r ∧ (Digs 2 d v ∨ Digs 1 d v) := by
  unfold takeHour
  constructor
  · rintro ⟨q, h, hq⟩
    rw [takeChar_iff] at hq
    subst hq
    split at h
    · rename_i h1
      cases h
      obtain ⟨d, rfl, hd⟩ := takeNum_iff.mp h1
      exact ⟨d, rfl, Or.inl hd⟩
    · obtain ⟨d, rfl, hd⟩ := takeNum_iff.mp h
      exact ⟨d, rfl, Or.inr hd⟩
  · rintro ⟨d, rfl, hd⟩
    refine ⟨':' :: r, ?_, by simp [takeChar]⟩
    rcases hd with hd | hd
    · rw [takeNum_iff.mpr ⟨d, rfl, hd⟩]
    · have : takeNum 2 (d ++ ':' :: r) = none := by
        have hl := hd.1
        match d, hl with
        | [x], _ =>
          unfold takeNum
          refine if_neg ?_
          rintro ⟨_, h⟩
          rw [List.all_eq_true] at h
          exact absurd (h ':' (by simp)) (by decide)
      rw [this]
      exact takeNum_iff.mpr ⟨d, rfl, hd⟩

theorem spanDigits_split : ∀ (s : Str), s = (spanDigits s).1 ++ (spanDigits s).2
  | [] => rfl
  | x :: s => by
    rw [spanDigits]
    split
    · simp [← spanDigits_split s]
    · rfl

theorem digitsVal_append_zeros (d : Str) (k : Nat) : digitsVal (d ++ List.replicate k '0') = digitsVal d * 10 ^ k := by
  induction k with
  | zero => simp
  | succ k ih =>
    rw [List.replicate_succ', ← List.append_assoc, digitsVal_snoc, ih, pow_succ]
    show digitsVal d * 10 ^ k * 10 + (48 - 48) = _
    ring

theorem nano_eq (d : Str) : digitsVal ((d ++ List.replicate 9 '0').take 9) = decimal (d.take 9) * 10 ^ (9 - d.length) := by
  rw [List.take_append, List.take_replicate, digitsVal_append_zeros, digitsVal_decimal]
  congr 2
  omega

theorem frac_lt {fr : Str} {nano : Nat} (h : FracOf fr nano) : nano < 10 ^ 9 := by
  rcases h with ⟨_, rfl⟩ | ⟨p, d, _, _, _, hd, rfl⟩
  · norm_num
  · rw [← nano_eq]
    have := digitsVal_lt ((d ++ List.replicate 9 '0').take 9) (by
      intro c hc
      rcases List.mem_append.mp (List.mem_of_mem_take hc) with hc | hc
      · exact (isDigit_iff c).mpr (hd c hc)
      · rw [List.mem_replicate] at hc; rw [hc.2]; decide)
    exact lt_of_lt_of_le this (Nat.pow_le_pow_right (by norm_num) (by simp))

theorem zoneOf_head {z : Str} {off : Int} (h : ZoneOf z off) : ∃ ch r, z = ch :: r ∧ isPoint ch = false ∧ ch.isDigit = false := by
  rcases h with ⟨rfl, _⟩ | ⟨g, h, m, H, M, rfl, _, _, _, _, ⟨rfl, _⟩ | ⟨rfl, _⟩⟩
  · exact ⟨_, _, rfl, by decide, by decide⟩
  · exact ⟨_, _, rfl, by decide, by decide⟩
  · exact ⟨_, _, rfl, by decide, by decide⟩

theorem takeFrac_sound (s : Str) : ∃ fr, s = fr ++ (takeFrac s).2 ∧ FracOf fr (takeFrac s).1 := by
  cases s with
  | nil => exact ⟨[], rfl, Or.inl ⟨rfl, rfl⟩⟩
  | cons ch r =>
    simp only [takeFrac]
    split
    · exact ⟨[], rfl, Or.inl ⟨rfl, rfl⟩⟩
    · rename_i h
      push Not at h
      refine ⟨ch :: (spanDigits r).1, by simp [← spanDigits_split r], Or.inr ⟨ch, _, ?_, rfl, h.2, ?_, nano_eq _⟩⟩
      · have := h.1
        simp only [isPoint, ne_eq, Bool.not_eq_false, Bool.or_eq_true, beq_iff_eq] at this
        exact this
      · exact fun c hc => (isDigit_iff c).mp (spanDigits_isDigit r c hc)

theorem takeFrac_complete {fr z : Str} {nano : Nat} {off : Int} (h : FracOf fr nano) (hz : ZoneOf z off) :
    takeFrac (fr ++ z) = (nano, z) := by
  obtain ⟨ch, r, rfl, h1, h2⟩ := zoneOf_head hz
  rcases h with ⟨rfl, rfl⟩ | ⟨p, d, hp, rfl, hne, hd, rfl⟩
  · simp only [List.nil_append, takeFrac]
    rw [if_pos (Or.inl h1)]
  · have hsp := spanDigits_run d (ch :: r) (fun c hc => (isDigit_iff c).mpr (hd c hc)) (by
      intro c hc; simp at hc; rw [← hc]; exact h2)
    simp only [List.cons_append, takeFrac, hsp]
    rw [if_neg, nano_eq]
    rintro (h | h)
    · rcases hp with rfl | rfl <;> exact absurd h (by decide)
    · exact hne h

theorem parseZone_iff {s : Str} {off : Int} : parseZone s = some off ↔ ZoneOf s off := by
  constructor
  · intro h
    rw [parseZone.eq_def] at h
    split at h
    · cases h; exact Or.inl ⟨rfl, rfl⟩
    · split at h
      · cases h
      · rename_i h1
        split at h
        · cases h
        · rename_i h2
          split at h
          · cases h
          · rename_i h3
            split at h
            · rename_i hc
              obtain ⟨d, rfl, hd⟩ := takeNum_iff.mp h1
              rw [takeChar_iff] at h2
              subst h2
              obtain ⟨m, rfl, hm⟩ := takeNum_iff.mp h3
              rw [hc.1, List.append_nil]
              simp only [Option.some.injEq] at h
              refine Or.inr ⟨_, d, m, _, _, rfl, hd, hm, hc.2.1, hc.2.2.1, ?_⟩
              rcases hc.2.2.2 with rfl | rfl
              · right
                refine ⟨rfl, ?_⟩
                rw [if_pos rfl] at h
                rw [← h]; push_cast; rfl
              · left
                refine ⟨rfl, ?_⟩
                rw [if_neg (by decide)] at h
                rw [← h]; push_cast; rfl
            · cases h
    · cases h
  · rintro (⟨rfl, rfl⟩ | ⟨g, h, m, H, M, rfl, hh, hm, hH, hM, hg⟩)
    · rfl
    · have hm' := takeNum_iff.mpr ⟨m, (List.append_nil m).symm, hm⟩
      rw [parseZone.eq_def]
      split
      · rename_i heq
        have := congrArg List.length heq
        simp at this
      · rename_i heq
        cases heq
        rw [takeNum_iff.mpr ⟨h, rfl, hh⟩]
        simp only [takeChar, if_true]
        rw [hm']
        simp only
        rw [if_pos ⟨trivial, hH, hM, by rcases hg with ⟨h, _⟩ | ⟨h, _⟩ <;> simp [h]⟩]
        rcases hg with ⟨rfl, rfl⟩ | ⟨rfl, rfl⟩
        · rw [if_neg (by decide)]; push_cast; rfl
        · rw [if_pos rfl]; push_cast; rfl
      · rename_i heq; cases heq

theorem digs_lt {n v : Nat} {s : Str} (h : Digs n s v) : v < 10 ^ n := by
  obtain ⟨h1, h2, h3⟩ := h
  have := digitsVal_lt s (fun c hc => (isDigit_iff c).mpr (h2 c hc))
  rw [digitsVal_decimal, h3, h1] at this
  exact this

/-- Exactly the time texts are accepted, each as the time it says. -/
theorem parseTime_iff {s : Str} {t : Time} : parseTime s = some t ↔ TimeText s t := by
  constructor
  · intro h
    unfold parseTime at h
    split at h
    · cases h
    rename_i hy
    split at h
    · cases h
    rename_i hmo
    split at h
    · cases h
    rename_i hd
    split at h
    · cases h
    rename_i hh
    split at h
    · cases h
    rename_i hcol
    split at h
    · cases h
    rename_i hmi
    split at h
    · cases h
    rename_i hse
    split at h
    · rename_i hc
      split at h
      · cases h
      · rename_i hz
        cases h
        obtain ⟨y, rfl, gy⟩ := takeField_iff.mp hy
        obtain ⟨mo, rfl, gmo⟩ := takeField_iff.mp hmo
        obtain ⟨d, rfl, gd⟩ := takeField_iff.mp hd
        obtain ⟨hr, rfl, gh⟩ := takeHour_iff.mp ⟨_, hh, hcol⟩
        obtain ⟨mi, rfl, gmi⟩ := takeField_iff.mp hmi
        obtain ⟨se, rfl, gse⟩ := takeNum_iff.mp hse
        rw [parseZone_iff] at hz
        obtain ⟨fr, hs, hfr⟩ := takeFrac_sound _
        refine ⟨y, mo, d, hr, mi, se, fr, _, ?_, gy, gmo, gd, gh, gmi, gse, hfr, hz, ?_⟩
        · conv_lhs => rw [hs]
        · have := digs_lt gy
          refine ⟨by simp only; omega, ⟨hc.2.2.1, _, (lastDay_iff _ _ _ ⟨hc.1, hc.2.1⟩).mpr rfl, hc.2.2.2.1⟩, hc.2.2.2.2.1,
            hc.2.2.2.2.2.1, hc.2.2.2.2.2.2, frac_lt hfr⟩
    · cases h
  · rintro ⟨y, mo, d, h, mi, se, fr, z, rfl, hy, hmo, hd, hh, hmi, hse, hfr, hz, he⟩
    obtain ⟨q, hq1, hq2⟩ := takeHour_iff.mpr ⟨h, rfl, hh⟩
    have hday := exists_day he
    unfold parseTime
    rw [takeField_iff.mpr ⟨y, rfl, hy⟩]
    simp only
    rw [takeField_iff.mpr ⟨mo, rfl, hmo⟩]
    simp only
    rw [takeField_iff.mpr ⟨d, rfl, hd⟩]
    simp only
    rw [hq1]
    simp only
    rw [hq2]
    simp only
    rw [takeField_iff.mpr ⟨mi, rfl, hmi⟩]
    simp only
    rw [takeNum_iff.mpr ⟨se, rfl, hse⟩]
    simp only
    rw [if_pos ⟨hday.1, hday.2.1, hday.2.2.1, hday.2.2.2, he.hour, he.min, he.sec⟩, takeFrac_complete hfr hz,
      parseZone_iff.mpr hz]

/-- The text written for a date that exists: refused exactly when the offset is a day or more. -/
theorem time_text_none (t : Time) : t.text = none ↔ 9999 < t.year ∨ 24 * 60 ≤ t.off.natAbs := by
  unfold Time.text
  split
  · rename_i h
    simp only [true_iff]
    omega
  · rename_i h
    simp only [reduceCtorEq, false_iff]
    omega

end Verif.Doc
