import Verif.Proof.Utf8
import Verif.Props.JsonText

/-!
# Cutting a JSON text inside a character

A text in which characters beyond ASCII are replaced by others is still a JSON text of the same kind.
-/
namespace Verif.JText

open Verif.Doc

/-- Some characters beyond ASCII are replaced by one or more others. -/
inductive Swap : Str → Str → Prop
  | nil : Swap [] []
  | same {c : Char} {s s' : Str} : Swap s s' → Swap (c :: s) (c :: s')
  | put {c : Char} {x s s' : Str} : 0x80 ≤ c.toNat → x ≠ [] → (∀ d ∈ x, 0x80 ≤ d.toNat) → Swap s s' → Swap (c :: s) (x ++ s')

theorem Swap.refl : ∀ s : Str, Swap s s
  | [] => .nil
  | _ :: s => .same (Swap.refl s)

theorem Swap.append {a a' b b' : Str} (h : Swap a a') (h' : Swap b b') : Swap (a ++ b) (a' ++ b') := by
  induction h with
  | nil => exact h'
  | same _ ih => exact .same ih
  | put h1 h2 h3 _ ih => rw [List.append_assoc]; exact .put h1 h2 h3 ih

theorem Swap.split : ∀ {a b s : Str}, Swap (a ++ b) s → ∃ a' b', Swap a a' ∧ Swap b b' ∧ s = a' ++ b'
  | [], b, s, h => ⟨[], s, .nil, h, rfl⟩
  | c :: a, b, s, h => by
    rw [List.cons_append] at h
    cases h with
    | same h =>
      obtain ⟨a', b', h1, h2, rfl⟩ := Swap.split h
      exact ⟨c :: a', b', .same h1, h2, rfl⟩
    | @put _ x _ s' k1 k2 k3 h =>
      obtain ⟨a', b', h1, h2, rfl⟩ := Swap.split h
      exact ⟨x ++ a', b', .put k1 k2 k3 h1, h2, by simp⟩

theorem Swap.ascii {c : Char} {s s' : Str} (h : Swap (c :: s) s') (hc : c.toNat < 0x80) : ∃ r, s' = c :: r ∧ Swap s r := by
  cases h with
  | same h => exact ⟨_, rfl, h⟩
  | put h1 => omega

theorem Swap.asciis : ∀ {a s : Str}, Swap a s → (∀ c ∈ a, c.toNat < 0x80) → s = a
  | [], s, h, _ => by cases h; rfl
  | c :: a, s, h, hc => by
    replace h := h.ascii (hc c (by simp)); obtain ⟨r, rfl, h⟩ := h
    rw [h.asciis fun c hc' => hc c (by simp [hc'])]

theorem Swap.back {c : Char} {s r : Str} (h : Swap s (c :: r)) (hc : c.toNat < 0x80) : ∃ s0, s = c :: s0 ∧ Swap s0 r := by
  generalize hs : c :: r = s' at h
  cases h with
  | nil => cases hs
  | same h =>
    cases hs
    exact ⟨_, rfl, h⟩
  | @put _ x _ s' k1 k2 k3 h =>
    exfalso
    cases x with
    | nil => exact k2 rfl
    | cons d x =>
      rw [List.cons_append, List.cons.injEq] at hs
      have := k3 d (by simp)
      rw [← hs.1] at this
      omega

theorem hex_ascii {c : Char} {n : Nat} (h : Hex4.Hex c n) : c.toNat < 0x80 := by
  have k : ∀ a b : Char, a ≤ b → a.toNat ≤ b.toNat := fun _ _ h => h
  rcases h with ⟨_, h, _⟩ | ⟨_, h, _⟩ | ⟨_, h, _⟩ <;> exact lt_of_le_of_lt (k _ _ h) (by decide)

theorem hex4_ascii {h : Str} {n : Nat} (hh : Hex4 h n) : ∀ c ∈ h, c.toNat < 0x80 := by
  obtain ⟨a, b, c, d, p, q, r, t, rfl, h1, h2, h3, h4, -⟩ := hh
  intro x hx
  simp only [List.mem_cons, List.not_mem_nil, or_false] at hx
  rcases hx with rfl | rfl | rfl | rfl
  exacts [hex_ascii h1, hex_ascii h2, hex_ascii h3, hex_ascii h4]

theorem Swap.backs : ∀ {a s r : Str}, Swap s (a ++ r) → (∀ c ∈ a, c.toNat < 0x80) → ∃ s0, s = a ++ s0 ∧ Swap s0 r
  | [], s, r, h, _ => ⟨s, rfl, h⟩
  | c :: a, s, r, h, hc => by
    replace h := Swap.back (c := c) (r := a ++ r) (by simpa using h) (hc c (by simp)); obtain ⟨s0, rfl, h⟩ := h
    replace h := Swap.backs h fun c hc' => hc c (by simp [hc']); obtain ⟨s1, rfl, h⟩ := h
    exact ⟨s1, rfl, h⟩

theorem chars_put {x s t : Str} (h : Chars s t) (hx : ∀ d ∈ x, 0x80 ≤ d.toNat) : Chars (x ++ s) (x ++ t) := by
  induction x with
  | nil => exact h
  | cons d x ih =>
    have hd := hx d (by simp)
    exact .plain (by rintro rfl; exact absurd hd (by decide)) (by rintro rfl; exact absurd hd (by decide)) (by omega)
      (ih fun d hd => hx d (by simp [hd]))

theorem chars_swap {s t : Str} (h : Chars s t) : ∀ s', Swap s s' → ∃ t', Chars s' t' := by
  have hb : '\\'.toNat < 0x80 := by decide
  have hu : 'u'.toNat < 0x80 := by decide
  induction h with
  | nil => intro s' h; cases h; exact ⟨[], .nil⟩
  | @plain c s t h1 h2 h3 _ ih =>
    intro s' h
    cases h with
    | same h =>
      obtain ⟨t', ht⟩ := ih _ h
      exact ⟨_, .plain h1 h2 h3 ht⟩
    | put k1 k2 k3 h =>
      obtain ⟨t', ht⟩ := ih _ h
      exact ⟨_, chars_put ht k3⟩
  | @escape e c s t he _ ih =>
    intro s' h
    replace h := h.ascii hb; obtain ⟨r, rfl, h⟩ := h
    have hea : e.toNat < 0x80 := by
      unfold Escape at he
      simp only [List.mem_cons, Prod.mk.injEq, List.not_mem_nil, or_false] at he
      rcases he with ⟨rfl, _⟩ | ⟨rfl, _⟩ | ⟨rfl, _⟩ | ⟨rfl, _⟩ | ⟨rfl, _⟩ | ⟨rfl, _⟩ | ⟨rfl, _⟩ | ⟨rfl, _⟩ <;> decide
    replace h := h.ascii hea; obtain ⟨r, rfl, h⟩ := h
    obtain ⟨t', ht⟩ := ih _ h
    exact ⟨_, .escape he ht⟩
  | @hex x s t c hx _ ih =>
    intro s' h
    replace h := h.ascii hb; obtain ⟨r, rfl, h⟩ := h
    replace h := h.ascii hu; obtain ⟨r, rfl, h⟩ := h
    replace h := h.split; obtain ⟨a, b, h1, h2, rfl⟩ := h
    rw [h1.asciis (hex4_ascii hx)]
    obtain ⟨t', ht⟩ := ih _ h2
    exact ⟨_, .hex hx ht⟩
  | @pair x x' s t n m c hx hx' hp _ ih =>
    intro s' h
    replace h := h.ascii hb; obtain ⟨r, rfl, h⟩ := h
    replace h := h.ascii hu; obtain ⟨r, rfl, h⟩ := h
    replace h := h.split; obtain ⟨a, b, h1, h2, rfl⟩ := h
    rw [h1.asciis (hex4_ascii hx)]
    replace h2 := h2.ascii hb; obtain ⟨r, rfl, h⟩ := h2
    replace h := h.ascii hu; obtain ⟨r, rfl, h⟩ := h
    replace h := h.split; obtain ⟨a', b', h1', h2', rfl⟩ := h
    rw [h1'.asciis (hex4_ascii hx')]
    obtain ⟨t', ht⟩ := ih _ h2'
    exact ⟨_, .pair hx hx' hp ht⟩
  | @lone x s t n hx hn hl _ ih =>
    intro s' h
    replace h := h.ascii hb; obtain ⟨r, rfl, h⟩ := h
    replace h := h.ascii hu; obtain ⟨r, rfl, h⟩ := h
    replace h := h.split; obtain ⟨a, b, h1, h2, rfl⟩ := h
    rw [h1.asciis (hex4_ascii hx)]
    obtain ⟨t', ht⟩ := ih _ h2
    refine ⟨_, .lone hx hn ?_ ht⟩
    intro h' s0 m c hs hh
    subst hs
    replace h2 := h2.back hb; obtain ⟨r, rfl, h2⟩ := h2
    replace h2 := h2.back hu; obtain ⟨r, rfl, h2⟩ := h2
    replace h2 := h2.backs (hex4_ascii hh); obtain ⟨r, rfl, h2⟩ := h2
    exact hl h' r m c rfl hh

theorem ws_ascii {w : Str} (h : Ws w) : ∀ c ∈ w, c.toNat < 0x80 := by
  intro c hc
  rcases h c hc with rfl | rfl | rfl | rfl <;> decide

theorem digits_ascii {s : Str} (h : Digits s) : ∀ c ∈ s, c.toNat < 0x80 := by
  have k : ∀ a b : Char, a ≤ b → a.toNat ≤ b.toNat := fun _ _ h => h
  intro c hc
  exact lt_of_le_of_lt (k _ _ (h.2 c hc).2) (by decide)

theorem number_ascii {s : Str} (h : Number s) : ∀ c ∈ s, c.toNat < 0x80 := by
  obtain ⟨m, i, f, e, hm, hi, hf, he, rfl⟩ := h
  intro c hc
  simp only [List.mem_append] at hc
  rcases hc with hc | hc | hc | hc
  · rcases hm with rfl | rfl
    · cases hc
    · simp only [List.mem_singleton] at hc; subst hc; decide
  · rcases hi with rfl | hi
    · simp only [List.mem_singleton] at hc; subst hc; decide
    · exact digits_ascii hi.1 c hc
  · rcases hf with rfl | ⟨d, hd, rfl⟩
    · cases hc
    · rcases List.mem_cons.1 hc with rfl | hc
      · decide
      · exact digits_ascii hd c hc
  · rcases he with rfl | ⟨x, g, d, hx, hg, hd, rfl⟩
    · cases hc
    · rcases List.mem_cons.1 hc with rfl | hc
      · rcases hx with rfl | rfl <;> decide
      · rcases List.mem_append.1 hc with hc | hc
        · rcases hg with rfl | rfl | rfl
          · cases hc
          · simp only [List.mem_singleton] at hc; subst hc; decide
          · simp only [List.mem_singleton] at hc; subst hc; decide
        · exact digits_ascii hd c hc

/-- both are arrays, both are objects, or neither is either -/
def SameKind (j j' : J) : Prop := ((∃ l, j = .arr l) → ∃ l, j' = .arr l) ∧ ((∃ l, j = .obj l) → ∃ l, j' = .obj l)

theorem Swap.quoted {n r s' : Str} (h : Swap ('"' :: (n ++ '"' :: r)) s') : ∃ n' r', Swap n n' ∧ Swap r r' ∧ s' = '"' :: (n' ++ '"' :: r') := by
  replace h := h.ascii (by decide); obtain ⟨a, rfl, h⟩ := h
  replace h := h.split; obtain ⟨n', b, h1, h2, rfl⟩ := h
  replace h2 := h2.ascii (by decide); obtain ⟨c, rfl, h3⟩ := h2
  exact ⟨n', c, h1, h3, rfl⟩

mutual
theorem text_swap : ∀ {j : J} {s : Str}, Text j s → ∀ s', Swap s s' → ∃ j', Text j' s' ∧ SameKind j j'
  | _, _, .null, s', h => by rw [h.asciis (by decide)]; exact ⟨_, .null, by simp [SameKind]⟩
  | _, _, .true, s', h => by rw [h.asciis (by decide)]; exact ⟨_, .true, by simp [SameKind]⟩
  | _, _, .false, s', h => by rw [h.asciis (by decide)]; exact ⟨_, .false, by simp [SameKind]⟩
  | _, _, .num hn, s', h => by rw [h.asciis (number_ascii hn)]; exact ⟨_, .num hn, by simp [SameKind]⟩
  | _, _, .str (s := s) hc, s', h => by
    replace h := h.quoted; obtain ⟨n', r', h1, h2, rfl⟩ := h
    cases h2
    obtain ⟨t', ht⟩ := chars_swap hc _ h1
    exact ⟨_, .str ht, by simp [SameKind]⟩
  | _, _, .emptyArr (w := w) hw, s', h => by
    rw [h.asciis (by
      intro c hc
      simp only [List.mem_cons, List.mem_append, List.not_mem_nil, or_false] at hc
      rcases hc with rfl | hc | rfl
      · decide
      · exact ws_ascii hw c hc
      · decide)]
    exact ⟨_, .emptyArr hw, by simp [SameKind]⟩
  | _, _, .emptyObj (w := w) hw, s', h => by
    rw [h.asciis (by
      intro c hc
      simp only [List.mem_cons, List.mem_append, List.not_mem_nil, or_false] at hc
      rcases hc with rfl | hc | rfl
      · decide
      · exact ws_ascii hw c hc
      · decide)]
    exact ⟨_, .emptyObj hw, by simp [SameKind]⟩
  | _, _, .arr he, s', h => by
    replace h := h.ascii (by decide); obtain ⟨r, rfl, h⟩ := h
    replace h := h.split; obtain ⟨a, b, h1, h2, rfl⟩ := h
    rw [h2.asciis (by decide)]
    obtain ⟨l', hl⟩ := elems_swap he _ h1
    exact ⟨_, .arr hl, by simp [SameKind]⟩
  | _, _, .obj he, s', h => by
    replace h := h.ascii (by decide); obtain ⟨r, rfl, h⟩ := h
    replace h := h.split; obtain ⟨a, b, h1, h2, rfl⟩ := h
    rw [h2.asciis (by decide)]
    obtain ⟨l', hl⟩ := members_swap he _ h1
    exact ⟨_, .obj hl, by simp [SameKind]⟩
theorem elems_swap : ∀ {l : List J} {s : Str}, Elems l s → ∀ s', Swap s s' → ∃ l', Elems l' s'
  | _, _, .one hw ht hw', s', h => by
    replace h := h.split; obtain ⟨a, b, h1, h2, rfl⟩ := h
    replace h2 := h2.split; obtain ⟨c, d, h3, h4, rfl⟩ := h2
    rw [h1.asciis (ws_ascii hw), h4.asciis (ws_ascii hw')]
    obtain ⟨j', hj, -⟩ := text_swap ht _ h3
    exact ⟨_, .one hw hj hw'⟩
  | _, _, .cons hw ht hw' he, s', h => by
    replace h := h.split; obtain ⟨a, b, h1, h2, rfl⟩ := h
    replace h2 := h2.split; obtain ⟨c, d, h3, h4, rfl⟩ := h2
    replace h4 := h4.split; obtain ⟨e, f, h5, h6, rfl⟩ := h4
    replace h6 := h6.ascii (by decide); obtain ⟨g, rfl, h6⟩ := h6
    rw [h1.asciis (ws_ascii hw), h5.asciis (ws_ascii hw')]
    obtain ⟨j', hj, -⟩ := text_swap ht _ h3
    obtain ⟨l', hl⟩ := elems_swap he _ h6
    exact ⟨_, .cons hw hj hw' hl⟩
theorem members_swap : ∀ {l : List (Str × J)} {s : Str}, Members l s → ∀ s', Swap s s' → ∃ l', Members l' s'
  | _, _, .one hw hk hw1 hw2 ht hw3, s', h => by
    replace h := h.split; obtain ⟨a, b, h1, h2, rfl⟩ := h
    replace h2 := h2.quoted; obtain ⟨n', r', h3, h4, rfl⟩ := h2
    replace h4 := h4.split; obtain ⟨c, d, h5, h6, rfl⟩ := h4
    replace h6 := h6.ascii (by decide); obtain ⟨e, rfl, h6⟩ := h6
    replace h6 := h6.split; obtain ⟨f, g, h7, h8, rfl⟩ := h6
    replace h8 := h8.split; obtain ⟨i, k, h9, h10, rfl⟩ := h8
    rw [h1.asciis (ws_ascii hw), h5.asciis (ws_ascii hw1), h7.asciis (ws_ascii hw2), h10.asciis (ws_ascii hw3)]
    obtain ⟨j', hj, -⟩ := text_swap ht _ h9
    obtain ⟨k', hk'⟩ := chars_swap hk _ h3
    exact ⟨_, .one hw hk' hw1 hw2 hj hw3⟩
  | _, _, .cons hw hk hw1 hw2 ht hw3 hm, s', h => by
    replace h := h.split; obtain ⟨a, b, h1, h2, rfl⟩ := h
    replace h2 := h2.quoted; obtain ⟨n', r', h3, h4, rfl⟩ := h2
    replace h4 := h4.split; obtain ⟨c, d, h5, h6, rfl⟩ := h4
    replace h6 := h6.ascii (by decide); obtain ⟨e, rfl, h6⟩ := h6
    replace h6 := h6.split; obtain ⟨f, g, h7, h8, rfl⟩ := h6
    replace h8 := h8.split; obtain ⟨i, k, h9, h10, rfl⟩ := h8
    replace h10 := h10.split; obtain ⟨l, m, h11, h12, rfl⟩ := h10
    replace h12 := h12.ascii (by decide); obtain ⟨o, rfl, h12⟩ := h12
    rw [h1.asciis (ws_ascii hw), h5.asciis (ws_ascii hw1), h7.asciis (ws_ascii hw2), h11.asciis (ws_ascii hw3)]
    obtain ⟨j', hj, -⟩ := text_swap ht _ h9
    obtain ⟨k', hk'⟩ := chars_swap hk _ h3
    obtain ⟨l', hl⟩ := members_swap hm _ h12
    exact ⟨_, .cons hw hk' hw1 hw2 hj hw3 hl⟩
end

end Verif.JText
