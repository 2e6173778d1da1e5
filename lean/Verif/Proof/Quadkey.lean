import Verif.Model.TileID
import Mathlib.Data.List.Basic
import Mathlib.Tactic.Ring
import Mathlib.Tactic.Linarith

namespace Verif.Tid
open Verif.Go

/-- The digit character (0..3) of the bits `bx`, `by` -/
def dchar (n : Nat) : Char := Char.ofNat (48 + n)

theorem maskPos_eq (n i : Nat) (hn : n < 2 ^ 63) : maskPos (n : Int) (i + 1) = n.testBit i := by
  unfold maskPos
  have hget : ∀ j, (BitVec.ofInt 64 (n : Int)).getLsbD j = n.testBit j := by
    intro j
    have : BitVec.ofInt 64 (n : Int) = BitVec.ofNat 64 n := by simp
    rw [this, BitVec.getLsbD_ofNat]
    by_cases hj : j < 64
    · simp [hj]
    · simp [hj]
      have : n < 2 ^ j := lt_of_lt_of_le hn (Nat.pow_le_pow_right (by norm_num) (by omega))
      exact Nat.testBit_lt_two_pow this
  simp only [Nat.add_sub_cancel]
  by_cases hb : n.testBit i = true
  · have hi : i < 63 := by
      by_contra h
      have : n < 2 ^ i := lt_of_lt_of_le hn (Nat.pow_le_pow_right (by norm_num) (by omega))
      rw [Nat.testBit_lt_two_pow this] at hb
      exact absurd hb (by simp)
    have h1 : (BitVec.ofInt 64 (n : Int) &&& 1#64 <<< i) = BitVec.ofNat 64 (2 ^ i) := by
      apply BitVec.eq_of_getLsbD_eq
      intro j hj
      rw [BitVec.getLsbD_and, hget, BitVec.getLsbD_shiftLeft, BitVec.getLsbD_ofNat (x := 2 ^ i),
        Nat.testBit_two_pow]
      by_cases hji : i = j
      · subst hji; simp [hb, hj]
      · simp [hji, hj]
        omega
    rw [h1, hb]
    have hp : 2 ^ i < 2 ^ 63 := Nat.pow_lt_pow_right (by norm_num) hi
    have h2 : (BitVec.ofNat 64 (2 ^ i)).toInt = ((2 ^ i : Nat) : Int) := by
      rw [BitVec.toInt_eq_toNat_of_lt]
      · rw [BitVec.toNat_ofNat, Nat.mod_eq_of_lt (by omega)]
      · rw [BitVec.toNat_ofNat, Nat.mod_eq_of_lt (by omega)]; omega
    rw [h2]
    have : 0 < 2 ^ i := Nat.pos_of_ne_zero (by positivity)
    simp only [decide_eq_true_eq]
    exact_mod_cast this
  · have hb' : n.testBit i = false := by simpa using hb
    have h1 : (BitVec.ofInt 64 (n : Int) &&& 1#64 <<< i) = 0#64 := by
      apply BitVec.eq_of_getLsbD_eq
      intro j hj
      rw [BitVec.getLsbD_and, hget, BitVec.getLsbD_shiftLeft]
      by_cases hji : i = j
      · subst hji; simp [hb']
      · simp
        intro _ _ h3 h4
        omega
    rw [h1, hb']; simp

/-- digit of position `i` (0-based) of non-negative coordinates -/
def dig (x y i : Nat) : Nat := (if x.testBit i then 1 else 0) + (if y.testBit i then 2 else 0)

theorem dig_lt (x y i : Nat) : dig x y i < 4 := by unfold dig; split <;> split <;> omega

theorem quadDigit_eq (x y i : Nat) (hx : x < 2 ^ 63) (hy : y < 2 ^ 63) :
    quadDigit x y (i + 1) = dig x y i := by
  unfold quadDigit dig
  rw [maskPos_eq x i hx, maskPos_eq y i hy]

theorem itoa_digit : ∀ d : Nat, d < 4 → itoa (d : Int) = [dchar d] := by decide

/-- key, high digit first -/
def qk (x y : Nat) : Nat → List Char
  | 0 => []
  | i + 1 => dchar (dig x y i) :: qk x y i

theorem quadLoop_eq (x y : Nat) (hx : x < 2 ^ 63) (hy : y < 2 ^ 63) :
    ∀ z s, quadLoop x y z s = s ++ qk x y z
  | 0, s => by simp [quadLoop, qk]
  | z + 1, s => by
    rw [quadLoop, quadLoop_eq x y hx hy z, quadDigit_eq x y z hx hy, itoa_digit _ (dig_lt _ _ _)]
    simp [qk]

theorem i64_of_lt {n : Int} (h : IsI64 n) : i64 n = n := by
  unfold i64 IsI64 at *; rw [Int.bmod_eq_of_le] <;> omega

theorem quadKey_eq (x y z : Nat) (hx : x < 2 ^ 63) (hy : y < 2 ^ 63) (hz : z < 2 ^ 63) :
    quadKey ⟨x, y, z⟩ = qk x y z := by
  unfold quadKey
  simp only
  rw [i64_of_lt (by unfold IsI64; omega), Int.toNat_natCast, quadLoop_eq x y hx hy]
  simp

theorem qk_length (x y : Nat) : ∀ z, (qk x y z).length = z
  | 0 => rfl
  | z + 1 => by simp [qk, qk_length x y z]

theorem qk_mem (x y : Nat) : ∀ z, ∀ c ∈ qk x y z, c ∈ ['0', '1', '2', '3']
  | 0 => by simp [qk]
  | z + 1 => by
    intro c hc
    rw [qk, List.mem_cons] at hc
    rcases hc with rfl | hc
    · have := dig_lt x y z
      have h : ∀ d, d < 4 → dchar d ∈ ['0', '1', '2', '3'] := by decide
      exact h _ this
    · exact qk_mem x y z c hc

/-! reverse -/

theorem foldl_set_aux (n : Nat) : ∀ (l : List Char) (k : Nat) (acc : List Char), acc.length = n → k + l.length = n →
    (l.zipIdx k).foldl (fun acc p => acc.set (n - p.2 - 1) p.1) acc = l.reverse ++ acc.drop l.length
  | [], k, acc, _, _ => by simp
  | c :: l, k, acc, ha, hk => by
    simp only [List.zipIdx_cons, List.foldl_cons]
    simp only [List.length_cons] at hk
    rw [foldl_set_aux n l (k + 1) _ (by simpa using ha) (by omega)]
    have hlt : l.length < acc.length := by omega
    have : n - k - 1 = l.length := by omega
    rw [this]
    simp only [List.reverse_cons, List.append_assoc, List.length_cons]
    congr 1
    rw [List.drop_set, if_neg (by omega), List.drop_eq_getElem_cons hlt, Nat.sub_self, List.set_cons_zero]
    rfl

theorem reverse_eq (l : List Char) : reverse l = l.reverse := by
  unfold reverse
  rw [foldl_set_aux l.length l 0 l rfl (by omega)]
  simp

/-! decoding -/

def bx (c : Char) : Bool := c == '1' || c == '3'
def by' (c : Char) : Bool := c == '2' || c == '3'

theorem quadStep_eq (x y : BitVec 64) (o : Nat) (c : Char) (p : Nat) :
    quadStep (x, y, o) (c, p) =
      (x ||| (if bx c then 1#64 <<< p else 0), y ||| (if by' c then 1#64 <<< p else 0), p) := by
  unfold quadStep bx by'
  by_cases h1 : c = '1'
  · subst h1; simp
  by_cases h2 : c = '2'
  · subst h2; simp
  by_cases h3 : c = '3'
  · subst h3; simp
  simp [h1, h2, h3]

theorem getLsbD_one_shl (p j : Nat) (hj : j < 64) : (1#64 <<< p).getLsbD j = decide (j = p) := by
  rw [BitVec.getLsbD_shiftLeft]
  by_cases h : j = p
  · subst h; simp [hj]
  · simp [hj, h]; omega

/-- the state of the decode loop after reading `l` at positions `k..` -/
theorem decode_fold : ∀ (l : List Char) (k : Nat) (x y : BitVec 64) (o : Nat),
    let r := (l.zipIdx k).foldl quadStep (x, y, o)
    (∀ j, j < 64 → r.1.getLsbD j = (x.getLsbD j || (decide (k ≤ j) && (l[j - k]?.map bx).getD false))) ∧
    (∀ j, j < 64 → r.2.1.getLsbD j = (y.getLsbD j || (decide (k ≤ j) && (l[j - k]?.map by').getD false))) ∧
    (r.2.2 = if l = [] then o else k + l.length - 1)
  | [], k, x, y, o => by simp
  | c :: l, k, x, y, o => by
    simp only [List.zipIdx_cons, List.foldl_cons]
    rw [quadStep_eq]
    obtain ⟨h1, h2, h3⟩ := decode_fold l (k + 1) (x ||| (if bx c then 1#64 <<< k else 0))
      (y ||| (if by' c then 1#64 <<< k else 0)) k
    refine ⟨?_, ?_, ?_⟩
    · intro j hj
      rw [h1 j hj, BitVec.getLsbD_or]
      have : (if bx c then 1#64 <<< k else 0).getLsbD j = (bx c && decide (j = k)) := by
        split
        · rename_i h; rw [getLsbD_one_shl k j hj]; simp [h]
        · rename_i h; simp [h]
      rw [this]
      rcases lt_trichotomy j k with h | h | h
      · have a : ¬ k ≤ j := by omega
        have b : ¬ k + 1 ≤ j := by omega
        have c : ¬ j = k := by omega
        simp [a, b, c]
      · subst h
        simp
      · have a : k ≤ j := by omega
        have b : k + 1 ≤ j := by omega
        have c : ¬ j = k := by omega
        have e : j - k = (j - (k + 1)) + 1 := by omega
        simp [a, b, c, e]
    · intro j hj
      rw [h2 j hj, BitVec.getLsbD_or]
      have : (if by' c then 1#64 <<< k else 0).getLsbD j = (by' c && decide (j = k)) := by
        split
        · rename_i h; rw [getLsbD_one_shl k j hj]; simp [h]
        · rename_i h; simp [h]
      rw [this]
      rcases lt_trichotomy j k with h | h | h
      · have a : ¬ k ≤ j := by omega
        have b : ¬ k + 1 ≤ j := by omega
        have c : ¬ j = k := by omega
        simp [a, b, c]
      · subst h
        simp
      · have a : k ≤ j := by omega
        have b : k + 1 ≤ j := by omega
        have c : ¬ j = k := by omega
        have e : j - k = (j - (k + 1)) + 1 := by omega
        simp [a, b, c, e]
    · rw [h3]
      simp only [List.length_cons]
      split
      · rename_i h; subst h; simp
      · rename_i h
        have : 0 < l.length := List.length_pos_iff.mpr h
        rw [if_neg (by simp)]; omega

theorem qk_getElem (x y : Nat) : ∀ z j, j < z → (qk x y z).reverse[j]? = some (dchar (dig x y j))
  | 0, j, h => by omega
  | z + 1, j, h => by
    rw [qk, List.reverse_cons]
    by_cases hj : j < z
    · rw [List.getElem?_append_left (by simpa [qk_length] using hj)]
      exact qk_getElem x y z j hj
    · have : j = z := by omega
      subst this
      rw [List.getElem?_append_right (by simp [qk_length])]
      simp [qk_length]

theorem bx_dig (x y j : Nat) : bx (dchar (dig x y j)) = x.testBit j := by
  unfold dig
  cases x.testBit j <;> cases y.testBit j <;> decide
theorem by_dig (x y j : Nat) : by' (dchar (dig x y j)) = y.testBit j := by
  unfold dig
  cases x.testBit j <;> cases y.testBit j <;> decide

theorem toInt_of_bits (b : BitVec 64) (n : Nat) (hn : n < 2 ^ 63)
    (h : ∀ j, j < 64 → b.getLsbD j = n.testBit j) : b.toInt = n := by
  have : b = BitVec.ofNat 64 n := by
    apply BitVec.eq_of_getLsbD_eq
    intro j hj
    rw [h j hj, BitVec.getLsbD_ofNat]; simp [hj]
  rw [this, BitVec.toInt_eq_toNat_of_lt]
  · rw [BitVec.toNat_ofNat, Nat.mod_eq_of_lt (by omega)]
  · rw [BitVec.toNat_ofNat, Nat.mod_eq_of_lt (by omega)]; omega

theorem quadkeyToTile_eq (s : List Char) :
    let r := ((s.reverse).zipIdx).foldl quadStep (0#64, 0#64, 0)
    quadkeyToTile s = ⟨r.1.toInt, r.2.1.toInt, r.2.2 + 1⟩ := by
  unfold quadkeyToTile
  rw [reverse_eq]

theorem decode_encode (x y z : Nat) (hx : x < 2 ^ 63) (hy : y < 2 ^ 63) (hxz : x < 2 ^ z) (hyz : y < 2 ^ z)
    (hz1 : 1 ≤ z) : quadkeyToTile (qk x y z) = ⟨x, y, z⟩ := by
  have h0 := quadkeyToTile_eq (qk x y z)
  have hf := decode_fold (qk x y z).reverse 0 0#64 0#64 0
  simp only at h0 hf
  rw [h0]
  obtain ⟨h1, h2, h3⟩ := hf
  congr 1
  · apply toInt_of_bits _ _ hx
    intro j hj
    rw [h1 j hj]
    by_cases hjz : j < z
    · simp [qk_getElem x y z j hjz, bx_dig]
    · have : x < 2 ^ j := lt_of_lt_of_le hxz (Nat.pow_le_pow_right (by norm_num) (by omega))
      rw [Nat.testBit_lt_two_pow this]
      have : (qk x y z).reverse[j]? = none := by simp [qk_length]; omega
      simp [this]
  · apply toInt_of_bits _ _ hy
    intro j hj
    rw [h2 j hj]
    by_cases hjz : j < z
    · simp [qk_getElem x y z j hjz, by_dig]
    · have : y < 2 ^ j := lt_of_lt_of_le hyz (Nat.pow_le_pow_right (by norm_num) (by omega))
      rw [Nat.testBit_lt_two_pow this]
      have : (qk x y z).reverse[j]? = none := by simp [qk_length]; omega
      simp [this]
  · rw [h3]
    have hne : (qk x y z).reverse ≠ [] := by
      intro h; have := congrArg List.length h; simp [qk_length] at this; omega
    rw [if_neg hne]
    simp [qk_length]
    omega

/-- the coordinates spelt by a key -/
def spell (b : Char → Bool) : List Char → Nat
  | [] => 0
  | c :: cs => (if b c then 2 ^ cs.length else 0) + spell b cs

theorem spell_lt (b : Char → Bool) : ∀ s, spell b s < 2 ^ s.length
  | [] => by simp [spell]
  | c :: cs => by
    have := spell_lt b cs
    simp only [spell, List.length_cons, Nat.pow_succ]
    split <;> omega

theorem spell_testBit (b : Char → Bool) : ∀ s j, (spell b s).testBit j = (s.reverse[j]?.map b).getD false
  | [], j => by simp [spell]
  | c :: cs, j => by
    have hlt := spell_lt b cs
    rw [spell, List.reverse_cons]
    by_cases hj : j < cs.length
    · rw [List.getElem?_append_left (by simpa using hj), ← spell_testBit b cs j]
      split
      · rw [Nat.testBit_two_pow_add_gt hj]
      · simp
    · by_cases hj2 : j = cs.length
      · subst hj2
        rw [List.getElem?_append_right (by simp)]
        simp
        split
        · rename_i h; rw [Nat.testBit_two_pow_add_eq, Nat.testBit_lt_two_pow hlt, h]; rfl
        · rename_i h; simp [Nat.testBit_lt_two_pow hlt, h]
      · rw [List.getElem?_eq_none (by simp; omega)]
        simp only [Option.map_none, Option.getD_none]
        apply Nat.testBit_lt_two_pow
        have h1 : 2 ^ (cs.length + 1) ≤ 2 ^ j := Nat.pow_le_pow_right (by norm_num) (by omega)
        rw [Nat.pow_succ] at h1
        split <;> omega

theorem decode_spell (s : List Char) (hs : s ≠ []) (hl : s.length ≤ 63) :
    quadkeyToTile s = ⟨(spell bx s : Nat), (spell by' s : Nat), s.length⟩ := by
  have h0 := quadkeyToTile_eq s
  have hf := decode_fold s.reverse 0 0#64 0#64 0
  simp only at h0 hf
  rw [h0]
  obtain ⟨h1, h2, h3⟩ := hf
  have h63 : 2 ^ s.length ≤ 2 ^ 63 := Nat.pow_le_pow_right (by norm_num) hl
  congr 1
  · apply toInt_of_bits _ _ (lt_of_lt_of_le (spell_lt _ _) h63)
    intro j hj
    rw [h1 j hj, spell_testBit]; simp
  · apply toInt_of_bits _ _ (lt_of_lt_of_le (spell_lt _ _) h63)
    intro j hj
    rw [h2 j hj, spell_testBit]; simp
  · rw [h3]
    have : 0 < s.length := List.length_pos_iff.mpr hs
    simp [hs]; omega

theorem qk_congr (x y x' y' : Nat) : ∀ z, (∀ j, j < z → dig x y j = dig x' y' j) → qk x y z = qk x' y' z
  | 0, _ => rfl
  | z + 1, h => by
    rw [qk, qk, h z (by omega), qk_congr x y x' y' z (fun j hj => h j (by omega))]

theorem qk_spell : ∀ s : List Char, (∀ c ∈ s, c ∈ ['0', '1', '2', '3']) →
    qk (spell bx s) (spell by' s) s.length = s
  | [], _ => rfl
  | c :: cs, h => by
    rw [List.length_cons, qk]
    have hc : c ∈ ['0', '1', '2', '3'] := h c (by simp)
    congr 1
    · unfold dig
      rw [spell_testBit, spell_testBit]
      simp
      simp only [List.mem_cons, List.not_mem_nil, or_false] at hc
      rcases hc with rfl | rfl | rfl | rfl <;> decide
    · conv_rhs => rw [← qk_spell cs (fun c hc => h c (by simp [hc]))]
      apply qk_congr
      intro j hj
      unfold dig
      rw [spell_testBit, spell_testBit, spell_testBit, spell_testBit]
      rw [List.reverse_cons, List.getElem?_append_left (by simpa using hj)]

end Verif.Tid
