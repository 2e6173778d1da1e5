import Verif.Model.MvtGeom
import Mathlib.Tactic.Ring
import Mathlib.Tactic.Linarith
import Mathlib.Data.List.Destutter

/-! # Lemmas about the geometry command encoder and reader -/
namespace Verif.Mvt
open Verif.Go

theorem sshift31 (x : BitVec 32) : x.sshiftRight 31 = if x.msb then BitVec.allOnes 32 else 0#32 := by
  apply BitVec.eq_of_getLsbD_eq
  intro i hi
  rw [BitVec.getLsbD_sshiftRight]
  have h1 : ¬ (32 ≤ i) := by omega
  by_cases h : i = 0
  · subst h
    cases hm : x.msb <;> simp [BitVec.msb_eq_getLsbD_last] at hm ⊢ <;> simp [hm]
  · have h2 : ¬ (31 + i < 32) := by omega
    cases hm : x.msb
    · simp [h1, h2]
    · rw [if_pos rfl, BitVec.getLsbD_allOnes]; simp [h1, h2, hi]

theorem paramEnc_eq (v : Int) (h1 : -2147483648 ≤ v) (h2 : v < 2147483648) :
    (paramEnc v : Int) = if 0 ≤ v then 2 * v else -2 * v - 1 := by
  unfold paramEnc
  rw [sshift31, BitVec.msb_eq_toInt, BitVec.toInt_ofInt, Int.bmod_eq_of_le (by omega) (by omega)]
  by_cases h : 0 ≤ v
  · have : ¬ v < 0 := by omega
    simp only [this, decide_false, if_pos h, Bool.false_eq_true, if_false]
    rw [show BitVec.ofInt 32 v <<< 1 ^^^ 0#32 = BitVec.ofInt 32 v <<< 1 by simp]
    rw [BitVec.toNat_shiftLeft, BitVec.toNat_ofInt, Nat.shiftLeft_eq]
    omega
  · have h' : v < 0 := by omega
    simp only [h', decide_true, if_neg h, if_true]
    rw [BitVec.xor_allOnes, BitVec.toNat_not, BitVec.toNat_shiftLeft, BitVec.toNat_ofInt, Nat.shiftLeft_eq]
    omega

theorem deltaDim_eq (n : Nat) : deltaDim n = if n % 2 = 1 then -(((n : Int) + 1) / 2) else (n : Int) / 2 := by
  unfold deltaDim
  rw [Int.tdiv_neg, Int.tdiv_eq_ediv_of_nonneg (by omega), Int.tdiv_eq_ediv_of_nonneg (by omega)]

theorem deltaDim_paramEnc (v : Int) (h1 : -2147483648 ≤ v) (h2 : v < 2147483648) : deltaDim (paramEnc v) = v := by
  have h := paramEnc_eq v h1 h2
  rw [deltaDim_eq]
  split at h <;> split <;> omega

theorem paramEnc_lt (v : Int) : paramEnc v < 4294967296 := BitVec.isLt _

theorem cmdEnc_eq (id count : Nat) (hid : id < 8) (hc : count < 536870912) : cmdEnc id count = 8 * count + id := by
  unfold cmdEnc
  have e1 : id &&& 7 = id := by
    have := Nat.and_two_pow_sub_one_eq_mod id 3
    norm_num at this; omega
  rw [e1, Nat.mod_eq_of_lt (by omega), Nat.mul_comm count 8, Nat.or_comm]
  exact (Nat.two_pow_add_eq_or_of_lt (i := 3) (b := id) (by omega) count).symm

theorem i32_id {v : Int} (h1 : -2147483648 ≤ v) (h2 : v < 2147483648) : i32 v = v := by
  unfold i32; rw [Int.bmod_eq_of_le (by omega) (by omega)]


/-! ### Lines -/

/-- Coordinates whose pairwise differences fit in an int32. -/
def SmallPt (p : Pt) : Prop :=
  (-1073741824 ≤ p.1 ∧ p.1 < 1073741824) ∧ (-1073741824 ≤ p.2 ∧ p.2 < 1073741824)

instance (p : Pt) : Decidable (SmallPt p) := by unfold SmallPt; infer_instance

/-- Words of the moves from `l` along `ps`, repeated points skipped. -/
def enc : Pt → List Pt → List Nat
  | _, [] => []
  | l, p :: ps => if p = l then enc l ps else paramEnc (p.1 - l.1) :: paramEnc (p.2 - l.2) :: enc p ps

/-- `ps` without the points equal to their predecessor (`l` is before the first). -/
def dd : Pt → List Pt → List Pt
  | _, [] => []
  | l, p :: ps => if p = l then dd l ps else p :: dd p ps

theorem destutter'_eq_dd (l : Pt) (ps : List Pt) : ps.destutter' (· ≠ ·) l = l :: dd l ps := by
  induction ps generalizing l with
  | nil => rfl
  | cons p ps ih =>
    unfold dd
    by_cases h : p = l
    · subst h; rw [List.destutter'_cons_neg _ (by simp), ih]; simp
    · rw [List.destutter'_cons_pos _ (by exact fun e => h e.symm), ih]; simp [h]

theorem dd_length (l : Pt) (ps : List Pt) : (dd l ps).length ≤ ps.length := by
  induction ps generalizing l with
  | nil => simp [dd]
  | cons p ps ih =>
    unfold dd; split
    · exact (ih l).trans (by simp)
    · simp [ih p]

/-- Last point of the line `l :: ps`. -/
def lastOf (l : Pt) (ps : List Pt) : Pt := (ps.getLast?).getD l

theorem lastOf_cons (l p : Pt) (ps : List Pt) : lastOf l (p :: ps) = lastOf p ps := by
  cases ps with
  | nil => simp [lastOf]
  | cons q qs => simp [lastOf, List.getLast?_cons_cons, List.getLast?_cons]

theorem lastOf_dd (l : Pt) (ps : List Pt) : lastOf l (dd l ps) = lastOf l ps := by
  induction ps generalizing l with
  | nil => rfl
  | cons p ps ih =>
    rw [lastOf_cons]; unfold dd; split
    · rename_i h; subst h; exact ih _
    · rw [lastOf_cons, ih]

theorem small_sub {a b : Pt} (ha : SmallPt a) (hb : SmallPt b) :
    (-2147483648 ≤ a.1 - b.1 ∧ a.1 - b.1 < 2147483648) ∧ (-2147483648 ≤ a.2 - b.2 ∧ a.2 - b.2 < 2147483648) := by
  obtain ⟨⟨_, _⟩, _, _⟩ := ha; obtain ⟨⟨_, _⟩, _, _⟩ := hb; omega

theorem linePoint_same (c : Cursor) (p : Pt) (h : p = c.last) : linePoint c p = c := by
  subst h
  unfold linePoint
  have e : i32 0 = 0 := by decide
  simp [e]

theorem linePoint_new (c : Cursor) (p : Pt) (hl : SmallPt c.last) (hp : SmallPt p) (h : p ≠ c.last) :
    linePoint c p = ⟨c.geometry ++ [paramEnc (p.1 - c.last.1), paramEnc (p.2 - c.last.2)], p, (c.count + 1) % 4294967296⟩ := by
  obtain ⟨⟨a1, a2⟩, a3, a4⟩ := small_sub hp hl
  unfold linePoint
  simp only [i32_id a1 a2, i32_id a3 a4]
  have e : ¬ (p.1 - c.last.1 = 0 ∧ p.2 - c.last.2 = 0) := by
    intro ⟨e1, e2⟩; exact h (Prod.ext (by omega) (by omega))
  rw [if_pos e]; simp

theorem foldl_linePoint (ps : List Pt) (c : Cursor) (hl : SmallPt c.last) (hs : ∀ p ∈ ps, SmallPt p)
    (hc : c.count + ps.length < 4294967296) :
    ps.foldl linePoint c = ⟨c.geometry ++ enc c.last ps, lastOf c.last ps, c.count + (dd c.last ps).length⟩ := by
  induction ps generalizing c with
  | nil => simp [enc, dd, lastOf]
  | cons p ps ih =>
    have hp := hs p (by simp)
    simp only [List.length_cons] at hc
    rw [List.foldl_cons, lastOf_cons]
    by_cases h : p = c.last
    · rw [linePoint_same c p h, ih]
      · conv_rhs => unfold enc dd
        simp [h]
      · exact hl
      · exact fun q hq => hs q (by simp [hq])
      · omega
    · rw [linePoint_new c p hl hp h, ih]
      · conv_rhs => unfold enc dd
        rw [Nat.mod_eq_of_lt (by omega)]
        simp [h]; omega
      · exact hp
      · exact fun q hq => hs q (by simp [hq])
      · rw [Nat.mod_eq_of_lt (by omega)]; simp only; omega

theorem readPairs_enc (l : Pt) (ps : List Pt) (rest : List Nat) (hl : SmallPt l) (hs : ∀ p ∈ ps, SmallPt p) :
    readPairs (dd l ps).length l (enc l ps ++ rest) = (dd l ps, lastOf l ps, rest) := by
  induction ps generalizing l with
  | nil => cases rest <;> simp [enc, dd, readPairs, lastOf]
  | cons p ps ih =>
    have hp := hs p (by simp)
    rw [lastOf_cons]
    unfold enc dd
    by_cases h : p = l
    · subst h; simp only [if_true]; exact ih _ hp (fun q hq => hs q (by simp [hq]))
    · obtain ⟨⟨a1, a2⟩, a3, a4⟩ := small_sub hp hl
      simp only [if_neg h, List.length_cons, List.cons_append, readPairs]
      rw [deltaDim_paramEnc _ a1 a2, deltaDim_paramEnc _ a3 a4]
      have e : ((l.1 + (p.1 - l.1), l.2 + (p.2 - l.2)) : Pt) = p := Prod.ext (by simp) (by simp)
      rw [e, ih _ hp (fun q hq => hs q (by simp [hq]))]

/-- Words `MakeLine` writes for `p :: ps` when the last point written was `last`. -/
def lineWords (last p : Pt) (ps : List Pt) : List Nat :=
  [9, paramEnc (p.1 - last.1), paramEnc (p.2 - last.2), 8 * (dd p ps).length + 2] ++ enc p ps

theorem makeLine_eq (c : Cursor) (p : Pt) (ps : List Pt) (hl : SmallPt c.last) (hp : SmallPt p)
    (hs : ∀ q ∈ ps, SmallPt q) (hlen : ps.length < 536870912) :
    makeLine c (p :: ps) = some ⟨c.geometry ++ lineWords c.last p ps, lastOf p ps, (dd p ps).length⟩ := by
  obtain ⟨⟨a1, a2⟩, a3, a4⟩ := small_sub hp hl
  have hd := dd_length p ps
  unfold makeLine
  simp only
  rw [foldl_linePoint]
  · simp only [movePoint, i32_id a1 a2, i32_id a3 a4, moveTo, lineTo, lineWords]
    rw [cmdEnc_eq 1 1 (by decide) (by decide), cmdEnc_eq 2 (0 + (dd p ps).length) (by decide) (by omega)]
    simp only [Nat.zero_add]
    congr 1
    congr 1
    rw [List.append_assoc, List.append_assoc, List.append_assoc, List.append_assoc]
    rw [List.set_append_right _ _ (by omega)]
    congr 1
    simp
  · exact hp
  · exact hs
  · simp only [movePoint]; omega

theorem readPairs_length (n : Nat) (fp : Pt) (ws : List Nat) : (readPairs n fp ws).2.2.length ≤ ws.length := by
  induction n generalizing fp ws with
  | zero => simp [readPairs]
  | succ n ih =>
    match ws with
    | [] => simp [readPairs]
    | [_] => simp [readPairs]
    | a :: b :: ws => simp only [readPairs, List.length_cons]; exact (ih _ ws).trans (by omega)

/-- The fuel of the reader's loop never matters once it is at least the number of words: the loop of the code, which
has no bound, always terminates and computes this. -/
theorem rdLoop_fuel (ty total : Nat) (f : Nat) : ∀ (f' : Nat) (st : Bool) (fp : Option Pt) (ls : List Line) (ws : List Nat),
    ws.length ≤ f → ws.length ≤ f' → rdLoop ty total f st fp ls ws = rdLoop ty total f' st fp ls ws := by
  induction f with
  | zero =>
    intro f' st fp ls ws h h'
    have : ws = [] := List.length_eq_zero_iff.mp (by omega)
    subst this; simp [rdLoop]
  | succ f ih =>
    intro f' st fp ls ws h h'
    match ws, f' with
    | [], _ => simp [rdLoop]
    | w :: ws, 0 => simp at h'
    | w :: ws, f' + 1 =>
      simp only [List.length_cons] at h h'
      unfold rdLoop
      by_cases hw : w = 9
      · simp only [if_pos hw]
        match ws with
        | [] => rfl
        | [_] => rfl
        | [a, b] => rfl
        | a :: b :: cmd :: rest =>
          simp only
          split
          · rfl
          · have := fun p => readPairs_length (cmd / 8) p rest
            simp only [List.length_cons] at h h'
            exact ih _ _ _ _ _ ((this _).trans (by omega)) ((this _).trans (by omega))
      · simp only [if_neg hw]
        apply ih <;> omega

/-- What the reader knows about the last point when the writer's is `last`. -/
def Sync (start : Bool) (fp : Option Pt) (last : Pt) : Prop :=
  (start = true ∧ last = (0, 0)) ∨ (start = false ∧ fp = some last)

theorem rdLoop_line (ty total fuel : Nat) (start : Bool) (fp : Option Pt) (lines : List Line) (last p : Pt)
    (ps : List Pt) (rest : List Nat) (hty : ty = 2 ∨ ty = 3) (htot : total ≠ 3) (hsync : Sync start fp last)
    (hl : SmallPt last) (hp : SmallPt p) (hs : ∀ q ∈ ps, SmallPt q) :
    rdLoop ty total (fuel + 1) start fp lines (lineWords last p ps ++ rest)
      = rdLoop ty total fuel false (some (lastOf p ps)) (lines ++ [p :: dd p ps]) rest := by
  obtain ⟨⟨a1, a2⟩, a3, a4⟩ := small_sub hp hl
  have e8 : (8 * (dd p ps).length + 2) / 8 = (dd p ps).length := by omega
  have e : ((last.1 + (p.1 - last.1), last.2 + (p.2 - last.2)) : Pt) = p := Prod.ext (by simp) (by simp)
  rw [lineWords, List.append_assoc]
  simp only [List.cons_append, List.nil_append, rdLoop, if_true]
  rw [deltaDim_paramEnc _ a1 a2, deltaDim_paramEnc _ a3 a4, e8]
  simp only [if_neg htot]
  rcases hsync with ⟨h1, h2⟩ | ⟨h1, h2⟩
  · subst h1 h2
    have e' : ((p.1 - 0, p.2 - 0) : Pt) = p := Prod.ext (by simp) (by simp)
    simp only [not_true, false_and, if_false, e', readPairs_enc _ _ _ hp hs]
  · subst h1 h2
    simp only [Bool.false_eq_true, not_false_eq_true, true_and, hty, if_true, Option.map_some, e, readPairs_enc _ _ _ hp hs]

theorem rdLoop_skip (ty total fuel : Nat) (start : Bool) (fp : Option Pt) (lines : List Line) (rest : List Nat) :
    rdLoop ty total (fuel + 1) start fp lines (15 :: rest) = rdLoop ty total fuel false fp lines rest := by
  simp [rdLoop]

/-- Words of a sequence of lines, each followed by ClosePath if `close`. Empty lines write nothing here (the code panics). -/
def wordsLines (close : Bool) : Pt → List Line → List Nat
  | _, [] => []
  | last, [] :: ls => wordsLines close last ls
  | last, (p :: ps) :: ls => lineWords last p ps ++ (if close then [15] else []) ++ wordsLines close (lastOf p ps) ls

/-- Last point after a sequence of lines. -/
def lastLines : Pt → List Line → Pt
  | last, [] => last
  | last, [] :: ls => lastLines last ls
  | _, (p :: ps) :: ls => lastLines (lastOf p ps) ls

theorem wordsLines_append (close : Bool) (last : Pt) (a b : List Line) :
    wordsLines close last (a ++ b) = wordsLines close last a ++ wordsLines close (lastLines last a) b := by
  induction a generalizing last with
  | nil => rfl
  | cons l ls ih => cases l <;> simp [wordsLines, lastLines, ih]

theorem lastLines_append (last : Pt) (a b : List Line) :
    lastLines last (a ++ b) = lastLines (lastLines last a) b := by
  induction a generalizing last with
  | nil => rfl
  | cons l ls ih => cases l <;> simp [lastLines, ih]

/-- A line the encoder handles: not empty, coordinates small, short enough. -/
def GoodLine (l : Line) : Prop := l ≠ [] ∧ (∀ p ∈ l, SmallPt p) ∧ l.length ≤ 536870912

theorem small_lastOf {p : Pt} {ps : List Pt} (hp : SmallPt p) (hs : ∀ q ∈ ps, SmallPt q) : SmallPt (lastOf p ps) := by
  unfold lastOf
  cases h : ps.getLast? with
  | none => simpa using hp
  | some q => simpa using hs q (List.mem_of_getLast? h)

theorem small_lastLines {last : Pt} {ls : List Line} (hl : SmallPt last) (hs : ∀ l ∈ ls, ∀ q ∈ l, SmallPt q) :
    SmallPt (lastLines last ls) := by
  induction ls generalizing last with
  | nil => exact hl
  | cons l ls ih =>
    cases l with
    | nil => exact ih hl (fun m hm => hs m (by simp [hm]))
    | cons p ps =>
      exact ih (small_lastOf (hs (p :: ps) (by simp) p (by simp)) (fun q hq => hs (p :: ps) (by simp) q (by simp [hq])))
        (fun m hm => hs m (by simp [hm]))

theorem destutter_cons (p : Pt) (ps : List Pt) : (p :: ps).destutter (· ≠ ·) = p :: dd p ps := by
  rw [List.destutter_cons', destutter'_eq_dd]

theorem rdLoop_lines (ty total : Nat) (hty : ty = 2 ∨ ty = 3) (htot : total ≠ 3) (close : Bool) (ls : List Line) :
    ∀ (fuel : Nat) (start : Bool) (fp : Option Pt) (lines : List Line) (last : Pt), (wordsLines close last ls).length ≤ fuel →
    Sync start fp last → SmallPt last → (∀ l ∈ ls, GoodLine l) →
    rdLoop ty total fuel start fp lines (wordsLines close last ls) = some (lines ++ ls.map (List.destutter (· ≠ ·))) := by
  induction ls with
  | nil => intro fuel start fp lines last _ _ _ _; simp [wordsLines, rdLoop]
  | cons l ls ih =>
    intro fuel start fp lines last hf hsync hl hg
    obtain ⟨hne, hsm, hlen⟩ := hg l (by simp)
    cases l with
    | nil => exact absurd rfl hne
    | cons p ps =>
      have hp := hsm p (by simp)
      have hs : ∀ q ∈ ps, SmallPt q := fun q hq => hsm q (by simp [hq])
      have hll := small_lastOf hp hs
      rw [wordsLines, List.append_assoc] at hf ⊢
      rw [rdLoop_fuel ty total fuel ((wordsLines close (lastOf p ps) ls).length + 2 + 1 + (lineWords last p ps).length)]
      rotate_left
      · exact hf
      · simp; split <;> simp <;> omega
      rw [show ∀ a : Nat, a + 2 + 1 + (lineWords last p ps).length = (a + 2 + (lineWords last p ps).length) + 1 by intros; omega]
      rw [rdLoop_line _ _ _ _ _ _ _ _ _ _ hty htot hsync hl hp hs]
      cases close with
      | false =>
        simp only [Bool.false_eq_true, if_false, List.nil_append]
        rw [ih _ _ _ _ _ (by omega) (Or.inr ⟨rfl, rfl⟩) hll (fun m hm => hg m (by simp [hm]))]
        simp [destutter_cons]
      | true =>
        simp only [if_true, List.cons_append, List.nil_append]
        rw [show ∀ a : Nat, a + 2 + (lineWords last p ps).length = (a + 1 + (lineWords last p ps).length) + 1 by intros; omega,
          rdLoop_skip]
        rw [ih _ _ _ _ _ (by omega) (Or.inr ⟨rfl, rfl⟩) hll (fun m hm => hg m (by simp [hm]))]
        simp [destutter_cons]

theorem makeMultiLine_eq (ls : List Line) (c : Cursor) (hl : SmallPt c.last) (hg : ∀ l ∈ ls, GoodLine l) :
    ∃ n, makeMultiLine c ls = some ⟨c.geometry ++ wordsLines false c.last ls, lastLines c.last ls, n⟩ := by
  induction ls generalizing c with
  | nil => exact ⟨c.count, by simp [makeMultiLine, wordsLines, lastLines]⟩
  | cons l ls ih =>
    obtain ⟨hne, hsm, hlen⟩ := hg l (by simp)
    cases l with
    | nil => exact absurd rfl hne
    | cons p ps =>
      have hp := hsm p (by simp)
      have hs : ∀ q ∈ ps, SmallPt q := fun q hq => hsm q (by simp [hq])
      simp only [List.length_cons] at hlen
      obtain ⟨n, hn⟩ := ih ⟨c.geometry ++ lineWords c.last p ps, lastOf p ps, (dd p ps).length⟩
        (small_lastOf hp hs) (fun m hm => hg m (by simp [hm]))
      refine ⟨n, ?_⟩
      rw [makeMultiLine, makeLine_eq c p ps hl hp hs (by omega)]
      simp only [Option.bind_some, hn]
      simp [wordsLines, lastLines]

theorem wordsLines_total (close : Bool) (last : Pt) (ls : List Line) : (wordsLines close last ls).length ≠ 3 := by
  induction ls generalizing last with
  | nil => simp [wordsLines]
  | cons l ls ih =>
    cases l with
    | nil => simpa [wordsLines] using ih last
    | cons p ps => simp only [wordsLines, lineWords, List.length_append, List.length_cons]; omega

end Verif.Mvt
