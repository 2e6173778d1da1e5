import Verif.Model.Regex
import Mathlib.Data.List.Basic

namespace Verif.Regex

/-- greedy run followed by something outside the class, or by the end -/
theorem starM_run (p : Char → Bool) (rest : List Char) (hr : ∀ c ∈ rest.head?, p c = false)
    (k : List Char → Option Caps) (x : Caps) (hk : k rest = some x) :
    ∀ a, (∀ c ∈ a, p c = true) → starM p (a ++ rest) k = some x
  | [], _ => by
    cases rest with
    | nil => simpa [starM] using hk
    | cons c r =>
      have := hr c (by simp)
      simp [starM, this, hk]
  | c :: a, h => by
    have hc := h c (by simp)
    simp only [List.cons_append, starM, hc, if_true]
    rw [starM_run p rest hr k x hk a (fun c hc => h c (by simp [hc]))]

theorem plus_run (p : Char → Bool) (rest : List Char) (hr : ∀ c ∈ rest.head?, p c = false) (cap : Caps)
    (k : List Char → Caps → Option Caps) (x : Caps) (hk : k rest cap = some x) (a : List Char) (ha : a ≠ [])
    (h : ∀ c ∈ a, p c = true) : (Re.plus p).m (a ++ rest) cap k = some x := by
  cases a with
  | nil => exact absurd rfl ha
  | cons c a =>
    simp only [List.cons_append, Re.m, h c (by simp), if_true]
    exact starM_run p rest hr _ x hk a (fun c hc => h c (by simp [hc]))

theorem cls_ok (p : Char → Bool) (c : Char) (s : List Char) (cap : Caps) (k : List Char → Caps → Option Caps)
    (h : p c = true) : (Re.cls p).m (c :: s) cap k = k s cap := by simp [Re.m, h]

/-- greedy repetition in general: the result is `k` of the longest split that succeeds -/
theorem starM_split (p : Char → Bool) (k : List Char → Option Caps) (x : Caps) :
    ∀ (b : List Char) (rest : List Char), (∀ c ∈ b, p c = true) → k rest = some x →
      -- every longer split fails
      (∀ u v, rest = u ++ v → u ≠ [] → (∀ c ∈ u, p c = true) → k v = none) →
      starM p (b ++ rest) k = some x
  | [], rest, _, hk, hl => by
    have key : ∀ r : List Char, (∀ u v, r = u ++ v → u ≠ [] → (∀ c ∈ u, p c = true) → k v = none) →
        k r = none → starM p r k = none := by
      intro r
      induction r with
      | nil => intro _ h; simpa [starM] using h
      | cons c r ih =>
        intro h h0
        simp only [starM]
        split
        · rename_i hc
          rw [ih (fun u v e hu hp => h (c :: u) v (by simp [e]) (by simp) (by
            intro d hd
            rw [List.mem_cons] at hd
            rcases hd with rfl | hd
            · exact hc
            · exact hp d hd)) (h [c] r rfl (by simp) (by simpa using hc))]
          exact h0
        · exact h0
    cases rest with
    | nil => simpa [starM] using hk
    | cons c r =>
      simp only [List.nil_append, starM]
      split
      · rename_i hc
        rw [key r (fun u v e hu hp => hl (c :: u) v (by simp [e]) (by simp) (by
            intro d hd
            rw [List.mem_cons] at hd
            rcases hd with rfl | hd
            · exact hc
            · exact hp d hd)) (hl [c] r rfl (by simp) (by simpa using hc))]
        exact hk
      · exact hk
  | c :: b, rest, hb, hk, hl => by
    simp only [List.cons_append, starM, hb c (by simp), if_true]
    rw [starM_split p k x b rest (fun c hc => hb c (by simp [hc])) hk hl]

/-- what a successful greedy repetition means -/
theorem starM_sound (p : Char → Bool) (k : List Char → Option Caps) (x : Caps) :
    ∀ s, starM p s k = some x → ∃ a r, s = a ++ r ∧ (∀ c ∈ a, p c = true) ∧ k r = some x
  | [], h => ⟨[], [], rfl, by simp, by simpa [starM] using h⟩
  | c :: s, h => by
    simp only [starM] at h
    split at h
    · rename_i hc
      cases hs : starM p s k with
      | none => rw [hs] at h; exact ⟨[], c :: s, rfl, by simp, h⟩
      | some y =>
        rw [hs] at h
        cases h
        obtain ⟨a, r, e, ha, hr⟩ := starM_sound p k x s hs
        refine ⟨c :: a, r, by simp [e], ?_, hr⟩
        intro d hd
        rw [List.mem_cons] at hd
        rcases hd with rfl | hd
        · exact hc
        · exact ha d hd
    · exact ⟨[], c :: s, rfl, by simp, h⟩

theorem plus_sound {p : Char → Bool} {s : List Char} {cap : Caps} {k : List Char → Caps → Option Caps} {x : Caps}
    (h : (Re.plus p).m s cap k = some x) :
    ∃ a r, s = a ++ r ∧ a ≠ [] ∧ (∀ c ∈ a, p c = true) ∧ k r cap = some x := by
  cases s with
  | nil => simp [Re.m] at h
  | cons c s =>
    simp only [Re.m] at h
    split at h
    · rename_i hc
      obtain ⟨a, r, e, ha, hr⟩ := starM_sound p _ x s h
      refine ⟨c :: a, r, by simp [e], by simp, ?_, hr⟩
      intro d hd
      rw [List.mem_cons] at hd
      rcases hd with rfl | hd
      · exact hc
      · exact ha d hd
    · cases h

theorem cls_sound {p : Char → Bool} {s : List Char} {cap : Caps} {k : List Char → Caps → Option Caps} {x : Caps}
    (h : (Re.cls p).m s cap k = some x) : ∃ c r, s = c :: r ∧ p c = true ∧ k r cap = some x := by
  cases s with
  | nil => simp [Re.m] at h
  | cons c s =>
    simp only [Re.m] at h
    split at h
    · rename_i hc; exact ⟨c, s, rfl, hc, h⟩
    · cases h

theorem take_run (a r : List Char) : (a ++ r).take ((a ++ r).length - r.length) = a := by
  simp

theorem isDig_iff (c : Char) : isDig c = c.isDigit := by
  unfold isDig Char.isDigit
  rfl

/-! ## What a pattern can match -/

/-- `r.Lang a rest caps`: the text `a`, followed by `rest`, is a match of `r` with these captures. -/
def Re.Lang : Re → List Char → List Char → Caps → Prop
  | .cls p, a, _, caps => ∃ c, a = [c] ∧ p c = true ∧ caps = []
  | .star p, a, _, caps => (∀ c ∈ a, p c = true) ∧ caps = []
  | .plus p, a, _, caps => a ≠ [] ∧ (∀ c ∈ a, p c = true) ∧ caps = []
  | .opt r, a, rest, caps => r.Lang a rest caps ∨ (a = [] ∧ caps = [])
  | .seq r s, a, rest, caps => ∃ x y c1 c2, a = x ++ y ∧ r.Lang x (y ++ rest) c1 ∧ s.Lang y rest c2 ∧
      caps = c2 ++ c1
  | .group i r, a, rest, caps => ∃ c, r.Lang a rest c ∧ caps = (i, a) :: c
  | .eos, a, rest, caps => a = [] ∧ rest = [] ∧ caps = []

theorem m_sound (r : Re) : ∀ (s : List Char) (cap : Caps) (k : List Char → Caps → Option Caps) (x : Caps),
    r.m s cap k = some x → ∃ a rest caps, s = a ++ rest ∧ r.Lang a rest caps ∧ k rest (caps ++ cap) = some x := by
  induction r with
  | cls p =>
    intro s cap k x h
    obtain ⟨c, r, e, hp, hk⟩ := cls_sound h
    exact ⟨[c], r, [], by simp [e], ⟨c, rfl, hp, rfl⟩, by simpa using hk⟩
  | star p =>
    intro s cap k x h
    obtain ⟨a, r, e, hp, hk⟩ := starM_sound p _ x s h
    exact ⟨a, r, [], e, ⟨hp, rfl⟩, by simpa using hk⟩
  | plus p =>
    intro s cap k x h
    obtain ⟨a, r, e, hn, hp, hk⟩ := plus_sound h
    exact ⟨a, r, [], e, ⟨hn, hp, rfl⟩, by simpa using hk⟩
  | opt r ih =>
    intro s cap k x h
    simp only [Re.m] at h
    split at h
    · rename_i y hy
      cases h
      obtain ⟨a, rest, caps, e, hl, hk⟩ := ih s cap k x hy
      exact ⟨a, rest, caps, e, .inl hl, hk⟩
    · exact ⟨[], s, [], rfl, .inr ⟨rfl, rfl⟩, by simpa using h⟩
  | seq r s ihr ihs =>
    intro t cap k x h
    simp only [Re.m] at h
    obtain ⟨a, rest, c1, e, hl, hk⟩ := ihr t cap _ x h
    obtain ⟨b, rest', c2, e', hl', hk'⟩ := ihs rest (c1 ++ cap) k x hk
    refine ⟨a ++ b, rest', c2 ++ c1, by rw [e, e']; simp, ⟨a, b, c1, c2, rfl, ?_, hl', rfl⟩, by simpa using hk'⟩
    rw [← e']; exact hl
  | group i r ih =>
    intro s cap k x h
    simp only [Re.m] at h
    obtain ⟨a, rest, caps, e, hl, hk⟩ := ih s cap _ x h
    refine ⟨a, rest, (i, a) :: caps, e, ⟨caps, hl, rfl⟩, ?_⟩
    rw [e, take_run] at hk
    simpa using hk
  | eos =>
    intro s cap k x h
    simp only [Re.m] at h
    split at h
    · rename_i hs
      exact ⟨[], [], [], hs, ⟨rfl, rfl, rfl⟩, by rw [hs] at h; simpa using h⟩
    · cases h

/-- A found match is a match of the pattern somewhere in the text. -/
theorem find_sound (r : Re) : ∀ (s : List Char) (x : Caps), r.find s = some x →
    ∃ pre a post caps, s = pre ++ a ++ post ∧ r.Lang a post caps ∧ x = (0, a) :: caps
  | [], x, h => by
    simp only [Re.find] at h
    obtain ⟨a, rest, caps, e, hl, hk⟩ := m_sound r _ _ _ _ h
    refine ⟨[], a, rest, caps, by simpa using e, hl, ?_⟩
    have e1 := List.append_eq_nil_iff.1 e.symm
    obtain ⟨rfl, rfl⟩ := e1
    simpa using hk.symm
  | c :: s, x, h => by
    simp only [Re.find] at h
    split at h
    · rename_i y hy
      cases h
      obtain ⟨a, rest, caps, e, hl, hk⟩ := m_sound r _ _ _ _ hy
      refine ⟨[], a, rest, caps, by simpa using e, hl, ?_⟩
      rw [e, take_run] at hk
      simpa using hk.symm
    · obtain ⟨pre, a, post, caps, e, hl, hx⟩ := find_sound r s x h
      exact ⟨c :: pre, a, post, caps, by simp [e], hl, hx⟩

/-- What a greedy, leftmost match finds: a sufficient condition. -/
def Matches (r : Re) (a rest : List Char) (caps : Caps) : Prop :=
  ∀ (cap : Caps) (k : List Char → Caps → Option Caps) (x : Caps), k rest (caps ++ cap) = some x →
    r.m (a ++ rest) cap k = some x

theorem Matches.cls {p : Char → Bool} {c : Char} {rest : List Char} (h : p c = true) :
    Matches (.cls p) [c] rest [] := by
  intro cap k x hk
  simp only [List.singleton_append]
  rw [cls_ok p c rest cap k h]; simpa using hk

theorem Matches.star {p : Char → Bool} {a rest : List Char} (h : ∀ c ∈ a, p c = true)
    (hr : ∀ c ∈ rest.head?, p c = false) : Matches (.star p) a rest [] := by
  intro cap k x hk
  exact starM_run p rest hr _ x (by simpa using hk) a h

theorem Matches.plus {p : Char → Bool} {a rest : List Char} (hn : a ≠ []) (h : ∀ c ∈ a, p c = true)
    (hr : ∀ c ∈ rest.head?, p c = false) : Matches (.plus p) a rest [] := by
  intro cap k x hk
  exact plus_run p rest hr cap k x (by simpa using hk) a hn h

theorem Matches.opt {r : Re} {a rest : List Char} {caps : Caps} (h : Matches r a rest caps) :
    Matches (.opt r) a rest caps := by
  intro cap k x hk
  simp only [Re.m, h cap k x hk]

theorem Matches.skipCls {p : Char → Bool} {rest : List Char} (hr : ∀ c ∈ rest.head?, p c = false) :
    Matches (.opt (.cls p)) [] rest [] := by
  intro cap k x hk
  cases rest with
  | nil => simpa [Re.m] using hk
  | cons c rest =>
    have := hr c (by simp)
    simpa [Re.m, this] using hk

theorem Matches.seq {r s : Re} {a b rest : List Char} {c1 c2 : Caps} (h1 : Matches r a (b ++ rest) c1)
    (h2 : Matches s b rest c2) : Matches (.seq r s) (a ++ b) rest (c2 ++ c1) := by
  intro cap k x hk
  simp only [Re.m, List.append_assoc]
  exact h1 cap _ x (h2 (c1 ++ cap) k x (by simpa using hk))

theorem Matches.group {i : Nat} {r : Re} {a rest : List Char} {caps : Caps} (h : Matches r a rest caps) :
    Matches (.group i r) a rest ((i, a) :: caps) := by
  intro cap k x hk
  simp only [Re.m]
  refine h cap _ x ?_
  rw [take_run]; simpa using hk

theorem Matches.lit : ∀ (l rest : List Char), l ≠ [] → Matches (lit l) l rest []
  | [], _, h => absurd rfl h
  | [c], rest, _ => Matches.cls (by simp)
  | c :: d :: l, rest, _ => by
    have h1 : Matches (.cls (· == c)) [c] ((d :: l) ++ rest) [] := Matches.cls (by simp)
    exact Matches.seq h1 (Matches.lit (d :: l) rest (by simp))

theorem Matches.find {r : Re} {a rest : List Char} {caps : Caps} (h : Matches r a rest caps) :
    r.find (a ++ rest) = some ((0, a) :: caps) := by
  cases hc : a ++ rest with
  | nil =>
    obtain ⟨rfl, rfl⟩ := List.append_eq_nil_iff.1 hc
    have := h [] (fun s' c => some ((0, ([] : List Char).take (0 - s'.length)) :: c)) ((0, []) :: caps) (by simp)
    simpa [Re.find] using this
  | cons c s =>
    have := h [] (fun s' cap => some ((0, (c :: s).take ((c :: s).length - s'.length)) :: cap)) ((0, a) :: caps)
      (by simp only [← hc, take_run]; simp)
    rw [hc] at this
    simp only [Re.find, this]

theorem lit_lang : ∀ (l a rest : List Char) (caps : Caps), l ≠ [] → (lit l).Lang a rest caps → a = l ∧ caps = []
  | [], _, _, _, h, _ => absurd rfl h
  | [c], a, rest, caps, _, h => by
    obtain ⟨d, e, hd, hc⟩ := h
    simp at hd
    exact ⟨by rw [e, hd], hc⟩
  | c :: d :: l, a, rest, caps, _, h => by
    obtain ⟨x, y, c1, c2, e, ⟨c', e1, hc', e2⟩, h2, e3⟩ := h
    obtain ⟨e4, e5⟩ := lit_lang (d :: l) y rest c2 (by simp) h2
    simp at hc'
    refine ⟨by rw [e, e1, e4, hc']; rfl, by rw [e3, e5, e2]; rfl⟩

end Verif.Regex
