import Verif.Props.MbtilesMeta

/-!
# C46: the numbers in a terrain tile's header
-/
namespace Verif.Mbtiles
open Verif.Go

theorem ieee_mag (b : Nat) (h : b / 2 ^ 52 % 2 ^ 11 ≠ 2047) : ieee b = .num ((if b / 2 ^ 63 = 1 then -1 else 1) *
    ((if b / 2 ^ 52 % 2 ^ 11 = 0 then (b % 2 ^ 52) * 2 else (2 ^ 52 + b % 2 ^ 52) * 2 ^ (b / 2 ^ 52 % 2 ^ 11) : ℕ) : ℚ) / 2 ^ 1075) := by
  unfold ieee
  simp only
  rw [if_neg h]
  congr 2
  split <;> push_cast <;> rfl

/-- Magnitudes are ordered like the bits. -/
theorem mag_inj (e f e' f' : Nat) (hf : f < 2 ^ 52) (hf' : f' < 2 ^ 52)
    (h : (if e = 0 then f * 2 else (2 ^ 52 + f) * 2 ^ e) = (if e' = 0 then f' * 2 else (2 ^ 52 + f') * 2 ^ e')) : e = e' ∧ f = f' := by
  have grow : ∀ a b c d : Nat, c < 2 ^ 52 → a < b → (if a = 0 then c * 2 else (2 ^ 52 + c) * 2 ^ a) < (2 ^ 52 + d) * 2 ^ b := by
    intro a b c d hc hab
    by_cases h0 : a = 0
    · rw [if_pos h0]
      have : 2 ^ 1 ≤ 2 ^ b := Nat.pow_le_pow_right (by norm_num) (by omega)
      have h2 : 2 ^ 52 * 2 ≤ (2 ^ 52 + d) * 2 ^ b := Nat.mul_le_mul (by omega) (by omega)
      omega
    · rw [if_neg h0]
      have h2 : 2 ^ (a + 1) ≤ 2 ^ b := Nat.pow_le_pow_right (by norm_num) (by omega)
      have h3 : 2 ^ 52 * 2 ^ (a + 1) ≤ (2 ^ 52 + d) * 2 ^ b := Nat.mul_le_mul (by omega) h2
      have h4 : (2 ^ 52 + c) * 2 ^ a < (2 ^ 52 * 2) * 2 ^ a := Nat.mul_lt_mul_of_pos_right (by omega) (Nat.two_pow_pos a)
      have h5 : 2 ^ 52 * 2 ^ (a + 1) = (2 ^ 52 * 2) * 2 ^ a := by rw [Nat.pow_succ]; ring
      omega
  rcases Nat.lt_trichotomy e e' with hlt | heq | hgt
  · have := grow e e' f f' hf hlt
    rw [if_neg (by omega : ¬ e' = 0)] at h
    omega
  · subst heq
    refine ⟨rfl, ?_⟩
    by_cases h0 : e = 0
    · rw [if_pos h0, if_pos h0] at h; omega
    · rw [if_neg h0, if_neg h0] at h
      have := Nat.eq_of_mul_eq_mul_right (Nat.two_pow_pos e) h
      omega
  · have := grow e' e f' f hf' hgt
    rw [if_neg (by omega : ¬ e = 0)] at h
    omega

theorem nan_iff (b : Nat) : b % 2 ^ 63 > 0x7ff0000000000000 ↔ ieee b = .nan := by
  unfold ieee
  simp only
  have h1 : b % 2 ^ 63 = (b / 2 ^ 52 % 2 ^ 11) * 2 ^ 52 + b % 2 ^ 52 := by omega
  by_cases he : b / 2 ^ 52 % 2 ^ 11 = 2047
  · rw [if_pos he]
    by_cases hf : b % 2 ^ 52 = 0
    · rw [if_pos hf]
      simp only [reduceCtorEq, iff_false]
      omega
    · rw [if_neg hf]
      simp only [iff_true]
      omega
  · rw [if_neg he]
    simp only [reduceCtorEq, iff_false]
    omega

theorem signed_inj (D : ℚ) (hp : D ≠ 0) (ma mb : ℕ) (P Q : Prop) [Decidable P] [Decidable Q]
    (h : (if P then (-1 : ℚ) else 1) * (ma : ℚ) / D = (if Q then (-1 : ℚ) else 1) * (mb : ℚ) / D) : ma = mb ∧ (ma = 0 ∨ (P ↔ Q)) := by
  have h2 : (if P then (-1 : ℚ) else 1) * (ma : ℚ) = (if Q then (-1 : ℚ) else 1) * (mb : ℚ) := (div_left_inj' hp).1 h
  have na : (0 : ℚ) ≤ ma := Nat.cast_nonneg ma
  have nb : (0 : ℚ) ≤ mb := Nat.cast_nonneg mb
  by_cases hP : P <;> by_cases hQ : Q
  · rw [if_pos hP, if_pos hQ] at h2
    refine ⟨by exact_mod_cast (by linarith : (ma : ℚ) = mb), Or.inr (by tauto)⟩
  · rw [if_pos hP, if_neg hQ] at h2
    have z1 : (ma : ℚ) = 0 := by linarith
    have z2 : (mb : ℚ) = 0 := by linarith
    have z1 : ma = 0 := by exact_mod_cast z1
    have z2 : mb = 0 := by exact_mod_cast z2
    omega
  · rw [if_neg hP, if_pos hQ] at h2
    have z1 : (ma : ℚ) = 0 := by linarith
    have z2 : (mb : ℚ) = 0 := by linarith
    have z1 : ma = 0 := by exact_mod_cast z1
    have z2 : mb = 0 := by exact_mod_cast z2
    omega
  · rw [if_neg hP, if_neg hQ] at h2
    refine ⟨by exact_mod_cast (by linarith : (ma : ℚ) = mb), Or.inr (by tauto)⟩

/-- The comparison of the code is the one of IEEE 754: equal values, and not NaN. -/
theorem feq_iff (a b : Nat) (ha : a < 2 ^ 64) (hb : b < 2 ^ 64) : feq a b = true ↔ ieee a = ieee b ∧ ieee a ≠ .nan := by
  unfold feq
  simp only
  by_cases na : ieee a = .nan
  · rw [if_pos (by rw [Bool.or_eq_true]; exact Or.inl (decide_eq_true ((nan_iff a).2 na)))]
    simp [na]
  by_cases nb : ieee b = .nan
  · rw [if_pos (by rw [Bool.or_eq_true]; exact Or.inr (decide_eq_true ((nan_iff b).2 nb)))]
    simp only [Bool.false_eq_true, false_iff, not_and]
    intro h; rw [h, nb]; simp
  have na' : ¬ a % 2 ^ 63 > 0x7ff0000000000000 := fun h => na ((nan_iff a).1 h)
  have nb' : ¬ b % 2 ^ 63 > 0x7ff0000000000000 := fun h => nb ((nan_iff b).1 h)
  rw [if_neg (by rw [Bool.or_eq_true, decide_eq_true_eq, decide_eq_true_eq]; tauto)]
  simp only [Bool.or_eq_true, beq_iff_eq, Bool.and_eq_true]
  constructor
  · rintro (rfl | ⟨h1, h2⟩)
    · exact ⟨rfl, na⟩
    · refine ⟨?_, na⟩
      have zero : ∀ c : Nat, c % 2 ^ 63 = 0 → ieee c = .num 0 := by
        intro c hc
        rw [ieee_mag c (by omega), if_pos (by omega : c / 2 ^ 52 % 2 ^ 11 = 0), show c % 2 ^ 52 = 0 by omega]
        simp
      rw [zero a h1, zero b h2]
  · rintro ⟨h, -⟩
    have inf : ∀ c : Nat, ieee c ≠ .nan → c / 2 ^ 52 % 2 ^ 11 = 2047 → c % 2 ^ 52 = 0 ∧ ieee c = .inf (decide (c / 2 ^ 63 = 1)) := by
      intro c hn he
      unfold ieee at hn ⊢
      simp only at hn ⊢
      rw [if_pos he] at hn ⊢
      by_cases hf : c % 2 ^ 52 = 0
      · rw [if_pos hf]; exact ⟨hf, rfl⟩
      · rw [if_neg hf] at hn; exact absurd rfl hn
    by_cases ea : a / 2 ^ 52 % 2 ^ 11 = 2047
    · obtain ⟨fa, va⟩ := inf a na ea
      by_cases eb : b / 2 ^ 52 % 2 ^ 11 = 2047
      · obtain ⟨fb, vb⟩ := inf b nb eb
        rw [va, vb] at h
        simp only [FVal.inf.injEq, decide_eq_decide] at h
        left
        have : a / 2 ^ 63 = b / 2 ^ 63 := by
          have : a / 2 ^ 63 < 2 := by omega
          have : b / 2 ^ 63 < 2 := by omega
          omega
        omega
      · rw [va, ieee_mag b eb] at h; cases h
    · by_cases eb : b / 2 ^ 52 % 2 ^ 11 = 2047
      · obtain ⟨fb, vb⟩ := inf b nb eb
        rw [vb, ieee_mag a ea] at h; cases h
      · rw [ieee_mag a ea, ieee_mag b eb] at h
        simp only [FVal.num.injEq] at h
        obtain ⟨hm, hs⟩ := signed_inj (2 ^ 1075) (pow_ne_zero _ (by norm_num)) _ _ _ _ h
        obtain ⟨he, hf⟩ := mag_inj _ _ _ _ (Nat.mod_lt _ (by norm_num)) (Nat.mod_lt _ (by norm_num)) hm
        rcases hs with hs | hs
        · right
          have z : a / 2 ^ 52 % 2 ^ 11 = 0 ∧ a % 2 ^ 52 = 0 := by
            by_cases h0 : a / 2 ^ 52 % 2 ^ 11 = 0
            · rw [if_pos h0] at hs; exact ⟨h0, by omega⟩
            · rw [if_neg h0] at hs
              have := Nat.mul_pos (by omega : 0 < 2 ^ 52 + a % 2 ^ 52) (Nat.two_pow_pos (a / 2 ^ 52 % 2 ^ 11))
              omega
          omega
        · left
          have : a / 2 ^ 63 = b / 2 ^ 63 := by
            have : a / 2 ^ 63 < 2 := by omega
            have : b / 2 ^ 63 < 2 := by omega
            omega
          omega

theorem range8 : List.range 8 = [0, 1, 2, 3, 4, 5, 6, 7] := rfl

theorem sum8B (B : Nat) (f : Nat → Nat) : ((List.range 8).map fun i => f i * B ^ i).sum =
    f 0 + B * (f 1 + B * (f 2 + B * (f 3 + B * (f 4 + B * (f 5 + B * (f 6 + B * (f 7 + B * 0))))))) := by
  rw [range8]
  simp only [List.map_cons, List.map_nil, List.sum_cons, List.sum_nil]
  ring

theorem sum8 (f : Nat → Nat) : ((List.range 8).map fun i => f i * 256 ^ i).sum =
    f 0 + 256 * (f 1 + 256 * (f 2 + 256 * (f 3 + 256 * (f 4 + 256 * (f 5 + 256 * (f 6 + 256 * (f 7 + 256 * 0))))))) := sum8B 256 f

theorem getD_elem (data : List Nat) (i : Nat) (h : i < data.length) : data.getD i 0 = data[i] := by
  rw [List.getD_eq_getElem?_getD, List.getElem?_eq_getElem h]; rfl

theorem le64_eq (data : List Nat) (off : Nat) (hl : off + 8 ≤ data.length) :
    le64 data off = (((List.range 8).map fun i => data.getD (off + i) 0 * 256 ^ i).sum) := by
  have hd : (data.drop off).take 8 = (List.range 8).map fun i => data.getD (off + i) 0 := by
    apply List.ext_getElem
    · simp; omega
    · intro i h1 h2
      have h3 : i < 8 := by simpa using h2
      rw [List.getElem_take, List.getElem_drop, List.getElem_map, List.getElem_range, getD_elem _ _ (by omega)]
  unfold le64
  rw [hd, sum8 fun i => data.getD (off + i) 0, range8]
  simp only [List.map_cons, List.map_nil, List.foldr_cons, List.foldr_nil]

theorem bytes_lt (data : List Nat) (off : Nat) (hb : ∀ b ∈ data, b < 256) :
    (((List.range 8).map fun i => data.getD (off + i) 0 * 256 ^ i).sum) < 2 ^ 64 := by
  have h : ∀ i, data.getD i 0 ≤ 255 := by
    intro i
    rcases Nat.lt_or_ge i data.length with h | h
    · rw [getD_elem _ _ h]
      have := hb _ (List.getElem_mem h)
      omega
    · rw [List.getD_eq_getElem?_getD, List.getElem?_eq_none h]; exact Nat.zero_le _
  rw [sum8 fun i => data.getD (off + i) 0]
  have h0 := h (off + 0); have h1 := h (off + 1); have h2 := h (off + 2); have h3 := h (off + 3)
  have h4 := h (off + 4); have h5 := h (off + 5); have h6 := h (off + 6); have h7 := h (off + 7)
  generalize data.getD (off + 0) 0 = a0 at h0 ⊢; generalize data.getD (off + 1) 0 = a1 at h1 ⊢
  generalize data.getD (off + 2) 0 = a2 at h2 ⊢; generalize data.getD (off + 3) 0 = a3 at h3 ⊢
  generalize data.getD (off + 4) 0 = a4 at h4 ⊢; generalize data.getD (off + 5) 0 = a5 at h5 ⊢
  generalize data.getD (off + 6) 0 = a6 at h6 ⊢; generalize data.getD (off + 7) 0 = a7 at h7 ⊢
  omega

/-- **C46.** Terrain is reported exactly for bytes with no magic prefix, at least 88 of them, whose header gives the same numbers (IEEE 754, not NaN,
zeros equal) as centre of the tile and as centre of the bounding sphere. -/
theorem C46_terrain_numbers (order : List (TileFormat × List (List Nat))) (ho : order.Perm patterns) (data : List Nat) (hb : ∀ b ∈ data, b < 256) :
    detect order data = some TERRAIN ↔ (∀ f, ¬ StartsLike data f) ∧ 88 ≤ data.length ∧
      ∀ i < 3, doubleAt data (8 * i) = doubleAt data (8 * i + 32) ∧ doubleAt data (8 * i) ≠ .nan := by
  rw [C46_terrain order ho]
  refine and_congr_right fun _ => and_congr_right fun hl => ?_
  have key : ∀ i j, i + 8 ≤ 88 → j + 8 ≤ 88 → (feq (le64 data i) (le64 data j) = true ↔ doubleAt data i = doubleAt data j ∧ doubleAt data i ≠ .nan) := by
    intro i j hi hj
    rw [le64_eq data i (by omega), le64_eq data j (by omega), feq_iff _ _ (bytes_lt data i hb) (bytes_lt data j hb)]
    rfl
  rw [key 0 32 (by omega) (by omega), key 8 40 (by omega) (by omega), key 16 48 (by omega) (by omega)]
  constructor
  · rintro ⟨h0, h1, h2⟩ i hi
    interval_cases i
    · exact h0
    · exact h1
    · exact h2
  · intro h
    exact ⟨h 0 (by omega), h 1 (by omega), h 2 (by omega)⟩

example : ieee 0x3ff0000000000000 = .num 1 ∧ ieee 0x8000000000000000 = .num 0 ∧ ieee 0x7ff8000000000000 = .nan ∧ ieee 0xfff0000000000000 = .inf true ∧
    ieee 0xc059000000000000 = .num (-100) := by
  refine ⟨?_, ?_, ?_, ?_, ?_⟩ <;> decide +kernel

end Verif.Mbtiles
