import Verif.Model.Pbf
import Mathlib.Tactic.Ring
import Mathlib.Tactic.Linarith
import Mathlib.Data.List.Basic

/-! # Lemmas about the assumed protobuf primitives -/
namespace Verif.Pbf
open Verif.Go

/-- The bytes of `b` from position `p` on are `s`. -/
def At (b : Bytes) (p : Int) (s : Bytes) : Prop := ∃ pre, b = pre ++ s ∧ p = pre.length

theorem At.zero (b : Bytes) : At b 0 b := ⟨[], rfl, rfl⟩

theorem At.adv {b : Bytes} {p : Int} {a s : Bytes} (h : At b p (a ++ s)) : At b (p + a.length) s := by
  obtain ⟨pre, rfl, rfl⟩ := h
  exact ⟨pre ++ a, by simp, by simp⟩

theorem At.adv1 {b : Bytes} {p : Int} {x : Nat} {s : Bytes} (h : At b p (x :: s)) : At b (p + 1) s := by
  simpa using At.adv (a := [x]) h

theorem At.pos {b : Bytes} {p : Int} {s : Bytes} (h : At b p s) : p + s.length = b.length := by
  obtain ⟨pre, rfl, rfl⟩ := h; simp

theorem At.nonneg {b : Bytes} {p : Int} {s : Bytes} (h : At b p s) : 0 ≤ p := by
  obtain ⟨pre, rfl, rfl⟩ := h; simp

theorem At.suffix {b : Bytes} {p : Int} {s : Bytes} (h : At b p s) : suffix b p = some s := by
  have h1 := h.pos; have h2 := h.nonneg
  unfold Pbf.suffix
  rw [if_pos ⟨h2, by omega⟩]
  obtain ⟨pre, rfl, rfl⟩ := h
  simp

theorem At.slice {b : Bytes} {p : Int} {a s : Bytes} (h : At b p (a ++ s)) : (b.drop p.toNat).take a.length = a := by
  obtain ⟨pre, rfl, rfl⟩ := h; simp

theorem readTag_at {b : Bytes} {p : Int} {x : Nat} {s : Bytes} (h : At b p (x :: s)) :
    readTag b p = some (x / 8, x % 8, p + 1) := by
  have h1 := h.pos
  simp at h1
  unfold readTag
  rw [if_neg (by omega), h.suffix]; rfl

theorem readTag_end {b : Bytes} {p : Int} (h : At b p []) : readTag b p = some (100, 100, p) := by
  have h1 := h.pos
  simp at h1
  unfold readTag
  rw [if_pos (by omega)]

theorem encVarint_ne_nil (x : Nat) : encVarint x ≠ [] := by unfold encVarint; split <;> simp

theorem decVarint_enc (x : Nat) (s : Bytes) : decVarint (encVarint x ++ s) = some (x, (encVarint x).length) := by
  induction x using Nat.strong_induction_on with
  | _ x ih =>
    unfold encVarint
    split
    · rename_i h; simp [decVarint, h]
    · rename_i h
      rw [List.cons_append, decVarint, if_neg (by omega), ih (x / 128) (by omega)]
      simp; omega

theorem readUInt64_at {b : Bytes} {p : Int} {x : Nat} {s : Bytes} (h : At b p (encVarint x ++ s)) (hx : x < 18446744073709551616) :
    readUInt64 b p = some (x, p + (encVarint x).length) := by
  unfold readUInt64
  rw [h.suffix, Option.bind_some, decVarint_enc]
  simp [Nat.mod_eq_of_lt hx]

theorem i64_small (x : Nat) (h : x < 9223372036854775808) : i64 (x : Int) = x := by
  unfold i64; rw [Int.bmod_eq_of_le (by omega) (by omega)]

theorem readVarint_at {b : Bytes} {p : Int} {x : Nat} {s : Bytes} (h : At b p (encVarint x ++ s)) (hx : x < 9223372036854775808) :
    readVarint b p = some ((x : Int), p + (encVarint x).length) := by
  unfold readVarint
  rw [readUInt64_at h (by omega)]
  simp [i64_small x hx]

theorem readString_at {b : Bytes} {p : Int} {t s : Bytes} (h : At b p (encVarint t.length ++ (t ++ s))) (hx : t.length < 9223372036854775808) :
    readString b p = some (t, p + (encVarint t.length).length + t.length) := by
  unfold readString
  rw [readVarint_at h hx, Option.bind_some]
  simp only
  rw [h.adv.suffix]
  simp

theorem varintFirst_at {b : Bytes} {p : Int} {x : Nat} {s : Bytes} (h : At b p (encVarint x ++ s)) (hx : x < 128) :
    varintFirst b p = some (x, p + (encVarint x).length) := by
  unfold varintFirst
  rw [h.suffix, Option.bind_some, decVarint_enc]
  unfold encVarint
  simp [hx]

theorem packedLoop_at {b : Bytes} (ws : List Nat) (s : Bytes) (hw : ∀ w ∈ ws, w < 4294967296) :
    ∀ (f : Nat) (p e : Int), At b p (ws.flatMap encVarint ++ s) → e = p + (ws.flatMap encVarint).length → ws.length < f →
      packedLoop b e f p = some (ws, e) := by
  induction ws with
  | nil =>
    intro f p e h he hf
    cases f with
    | zero => omega
    | succ f => simp at he; subst he; simp [packedLoop]
  | cons w ws ih =>
    intro f p e h he hf
    cases f with
    | zero => omega
    | succ f =>
      have hw0 := hw w (by simp)
      rw [List.flatMap_cons, List.append_assoc] at h
      have hl : 0 < (encVarint w).length := List.length_pos_iff.mpr (encVarint_ne_nil w)
      rw [List.flatMap_cons, List.length_append] at he
      rw [packedLoop, if_pos (by push_cast at he; omega), readUInt64_at h (by omega)]
      simp only [Option.bind_some]
      rw [ih (fun x hx => hw x (by simp [hx])) f _ e h.adv (by push_cast at he ⊢; omega) (by simpa using hf)]
      simp [Nat.mod_eq_of_lt hw0]

theorem flatMap_enc_length (ws : List Nat) : ws.length ≤ (ws.flatMap encVarint).length := by
  induction ws with
  | nil => simp
  | cons w ws ih =>
    have hl : 0 < (encVarint w).length := List.length_pos_iff.mpr (encVarint_ne_nil w)
    simp only [List.flatMap_cons, List.length_append, List.length_cons]; omega

theorem readPacked_at {b : Bytes} {p : Int} {ws : List Nat} {s : Bytes}
    (h : At b p (encVarint (ws.flatMap encVarint).length ++ (ws.flatMap encVarint ++ s))) (hw : ∀ w ∈ ws, w < 4294967296)
    (hl : (ws.flatMap encVarint).length < 9223372036854775808) :
    readPacked b p = some (ws, p + (encVarint (ws.flatMap encVarint).length).length + (ws.flatMap encVarint).length) := by
  unfold readPacked
  rw [readVarint_at h hl, Option.bind_some]
  have h2 := h.adv
  have h3 := h2.pos
  have h4 := h2.nonneg
  have := flatMap_enc_length ws
  simp only
  rw [packedLoop_at ws s hw _ _ _ h2 rfl (by rw [List.length_append] at h3; omega)]

theorem unle_le (n x : Nat) (h : x < 256 ^ n) : unle (le n x) = x := by
  induction n generalizing x with
  | zero => simp at h; simp [le, unle, h]
  | succ n ih =>
    rw [le, unle, ih]
    · omega
    · rw [pow_succ] at h; omega

theorem le_length (n x : Nat) : (le n x).length = n := by
  induction n generalizing x with
  | zero => rfl
  | succ n ih => simp [le, ih]

/-- The laws assumed of the library hold for the standard protobuf payloads. -/
theorem standard_law : NumCodec.standard.Law where
  f32 := by
    intro x s h
    simp only [NumCodec.standard, le_length, List.length_append]
    rw [if_neg (by omega), List.take_left' (le_length 4 x), unle_le 4 x (by norm_num; exact h)]
  f64 := by
    intro x s h
    simp only [NumCodec.standard, le_length, List.length_append]
    rw [if_neg (by omega), List.take_left' (le_length 8 x), unle_le 8 x (by norm_num; exact h)]
  int := by
    intro x s h
    have e : i64 ((u64 x : Nat) : Int) = x := by
      unfold i64 u64
      obtain ⟨h1, h2⟩ := h
      have : (0:Int) ≤ x % 18446744073709551616 := Int.emod_nonneg _ (by decide)
      rw [Int.toNat_of_nonneg this]
      have e2 := Int.emod_bmod x 18446744073709551616
      push_cast at e2
      rw [e2]
      exact Int.bmod_eq_of_le (by omega) (by omega)
    simp only [NumCodec.standard, decVarint_enc, Option.map_some, e]
  uint := by
    intro x s h
    simp only [NumCodec.standard, decVarint_enc, Option.map_some, Nat.mod_eq_of_lt h]

end Verif.Pbf
