import Verif.Model.FontDraw
import Verif.Props.FontPbf
import Verif.Props.Font
import Verif.Proof.F64

/-!
# C101: drawing the glyphs of a file
-/
namespace Verif.FontPbf
open Verif.Pbf

/-- The alpha of a byte of the distance field: with `t = (a - 168) / 32` it is the integer part of `t² (3 - 2t) a` between 168 and 200, 0
below and `a` above. -/
def ramp (a : Nat) : Nat :=
  if a ≤ 168 then 0 else if 200 ≤ a then a else (a - 168) ^ 2 * (96 - 2 * (a - 168)) * a / 32768

/-- **C101.** For every byte float64 gives exactly the integer part of the smooth step. -/
theorem C101_ramp : ∀ a < 256, alphaF 136 168 ((a : Nat) : ℚ) = ramp a := by
  decide +kernel

/-- **C101.** The ramp is 0 at the left, the byte itself at the right, never above the byte, and rises. -/
theorem C101_ramp_shape : ∀ a < 256, ramp a ≤ a ∧ ∀ b < 256, a ≤ b → ramp a ≤ ramp b := by
  have key : ∀ a < 255, ramp a ≤ ramp (a + 1) := by decide +kernel
  have mono : ∀ n a, a + n < 256 → ramp a ≤ ramp (a + n) := by
    intro n
    induction n with
    | zero => intro a _; exact le_refl _
    | succ n ih => intro a h; exact (ih a (by omega)).trans (key (a + n) (by omega))
  intro a ha
  refine ⟨?_, fun b hb hab => ?_⟩
  · revert a; decide +kernel
  · have := mono (b - a) a (by omega)
    rwa [Nat.add_sub_cancel' hab] at this

theorem mapM_range_none {α β : Type} (l : List α) (f : α → β) (n : Nat) (h : l.length < n) :
    (List.range n).mapM (fun i => (l[i]?).map f) = none :=
  Font.mapM_none_of_mem _ _ l.length (List.mem_range.2 h) (by simp)

/-- The alphas `DrawGlyph` shows for the bytes of a bitmap. -/
def shown (smoothstep : Bool) (bs : Bytes) : List Nat := if smoothstep then bs.map ramp else bs

/-- **C101.** `DrawGlyph` returns an image exactly if the glyph has a width and a height and its bitmap has a byte for every pixel of the glyph
with a border of 3 (sizes modulo 2^32); the image has that size and shows the first bytes of the bitmap, by rows, through the ramp if asked for. -/
theorem C101_draws (g : PGlyph) (hb : ∀ b ∈ g.bitmap.getD [], b < 256) (st : Bool) (p : Picture) :
    drawGlyph g st = some p ↔
      ∃ w h, g.width = some w ∧ g.height = some h ∧ p.width = (w + 6) % 2 ^ 32 ∧ p.height = (h + 6) % 2 ^ 32 ∧
        4 * p.width * p.height < 2 ^ 63 ∧ p.width * p.height ≤ (g.bitmap.getD []).length ∧
        p.alphas = shown st ((g.bitmap.getD []).take (p.width * p.height)) := by
  unfold drawGlyph
  cases hw : g.width with
  | none => simp
  | some w =>
    cases hh : g.height with
    | none => simp
    | some h =>
      simp only [Option.some.injEq, exists_and_left, exists_eq_left', Nat.reducePow]
      generalize (w + 6) % 4294967296 = W
      generalize (h + 6) % 4294967296 = H
      have hshow : ∀ n, ((g.bitmap.getD []).take n).map (fun a : Nat => if st then alphaF 136 168 (a : ℚ) else a) =
          shown st ((g.bitmap.getD []).take n) := by
        intro n
        unfold shown
        cases st with
        | false => simp
        | true =>
          simp only [if_true]
          exact List.map_congr_left fun a ha => C101_ramp a (hb a (List.mem_of_mem_take ha))
      by_cases hlen : H * W ≤ (g.bitmap.getD []).length
      · rw [Font.mapM_range_get _ _ _ hlen, hshow]
        by_cases hbig : 4 * W * H < 9223372036854775808
        · rw [if_pos hbig, Option.map_some, Option.some.injEq]
          constructor
          · rintro rfl
            simp only
            exact ⟨trivial, trivial, hbig, by rw [Nat.mul_comm]; exact hlen, by rw [Nat.mul_comm W H]⟩
          · obtain ⟨pw, ph, pa⟩ := p
            simp only
            rintro ⟨rfl, rfl, -, -, rfl⟩
            rw [Nat.mul_comm pw ph]
        · rw [if_neg hbig]
          constructor
          · rintro ⟨⟩
          · rintro ⟨rfl, rfl, h1, -⟩
            exact absurd h1 hbig
      · rw [mapM_range_none _ _ _ (by omega)]
        constructor
        · split
          · rintro ⟨⟩
          · rintro ⟨⟩
        · rintro ⟨rfl, rfl, -, h1, -⟩
          rw [Nat.mul_comm] at h1
          exact absurd h1 hlen

/-- **C101.** From the font to the picture: the glyphs a builder with the default border makes, written to a file and read again, are all drawn,
with a border of 3 around the drawing; the picture shows the whole distance field. -/
theorem C101_font_file (F : Font.FontFace) (x : Int) (g : Font.Glyph) (hg : Font.GlyphFor F 3 x g) (m : PGlyph) (hm : MessageFor g m)
    (hw : 4 * (g.width + 6) * (g.height + 6) < 2 ^ 63) (hw1 : g.width < 2 ^ 32 - 6) (hh1 : g.height < 2 ^ 32 - 6) (st : Bool) :
    drawGlyph m st = some ⟨g.width + 6, g.height + 6, shown st g.bitmap⟩ := by
  obtain ⟨-, dr, -, ew, eh, -, -, -, hl, hb⟩ := hg
  obtain ⟨-, m1, m2, -, -, -, m3, -⟩ := hm
  rw [C101_draws m (by rw [m3]; intro b h; have := hb b h; omega)]
  have e1 : (g.width + 6) % 2 ^ 32 = g.width + 6 := Nat.mod_eq_of_lt (by omega)
  have e2 : (g.height + 6) % 2 ^ 32 = g.height + 6 := Nat.mod_eq_of_lt (by omega)
  have hl' : g.bitmap.length = (g.width + 6) * (g.height + 6) := by rw [hl, ew, eh]
  refine ⟨g.width, g.height, m1, m2, e1.symm, e2.symm, hw, ?_, ?_⟩
  · rw [m3]; exact hl'.ge
  · simp only [m3, Option.getD_some]
    rw [← hl', List.take_length]

/-- **C101, what can go wrong.** A glyph without a bitmap (the field is optional) makes `DrawGlyph` panic; a glyph that
is 2^32 - 6 wide gives an empty picture. -/
theorem C101_panics (m : PGlyph) (hm : m.width ≠ none) (h : m.height ≠ none) :
    (m.bitmap = none → (m.width.getD 0 + 6) % 2 ^ 32 ≠ 0 → (m.height.getD 0 + 6) % 2 ^ 32 ≠ 0 → ∀ st, drawGlyph m st = none) ∧
    (m.width = some (2 ^ 32 - 6) → ∀ st, ∃ k, drawGlyph m st = some ⟨0, k, []⟩) := by
  obtain ⟨w, hw⟩ := Option.ne_none_iff_exists'.mp hm
  obtain ⟨k, hk⟩ := Option.ne_none_iff_exists'.mp h
  constructor
  · intro hn h1 h2 st
    rw [hw, Option.getD_some] at h1
    rw [hk, Option.getD_some] at h2
    rw [Option.eq_none_iff_forall_ne_some]
    intro p hp
    rw [C101_draws m (by rw [hn]; simp)] at hp
    obtain ⟨w', h', e1, e2, e3, e4, -, e5, -⟩ := hp
    rw [hw] at e1; rw [hk] at e2
    cases e1; cases e2
    rw [hn, e3, e4] at e5
    have := Nat.mul_pos (Nat.pos_of_ne_zero h1) (Nat.pos_of_ne_zero h2)
    simp only [Option.getD_none, List.length_nil] at e5
    omega
  · intro e st
    refine ⟨(k + 6) % 4294967296, ?_⟩
    unfold drawGlyph
    rw [e, hk]
    simp

/-- A picture of a glyph of size 0 with its border. -/
example : (drawGlyph { width := some 0, height := some 0, bitmap := some (List.replicate 35 180 ++ [201]) } true).map (fun p => (p.width, p.alphas.take 1, p.alphas.drop 35)) =
    some (6, [56], [201]) := by decide +kernel

end Verif.FontPbf
