import Verif.Model.StyleFile
import Verif.Proof.Regex
import Verif.Proof.Strconv

/-! # C16: style file names -/
namespace Verif.StyleFile
open Verif.Go Verif.Regex

/-- Lower-case ASCII text: what `strings.ToLower` leaves alone. -/
def LowerAscii (s : List Char) : Prop := ∀ c ∈ s, c.toNat < 128 ∧ ¬ ('A' ≤ c ∧ c ≤ 'Z')

/-- The style files the round trip is claimed for. -/
structure WellFormed (f : StyleFile) : Prop where
  type_ne : f.type ≠ []
  type_at : '@' ∉ f.type
  type_low : LowerAscii f.type
  ext : ∃ e, e ≠ [] ∧ f.ext = '.' :: e ∧ (∀ c ∈ e, c.isAlphanum = true) ∧ LowerAscii e
  ratio : f.pixelRatio = 1 ∨ (2 ≤ f.pixelRatio ∧ f.pixelRatio < 9223372036854775808)

theorem isAlnum_eq (c : Char) : isAlnum c = c.isAlphanum := by
  rw [Bool.eq_iff_iff]
  simp only [isAlnum, isDig, Char.isAlphanum, Char.isAlpha, Char.isUpper, Char.isLower, Char.isDigit, Bool.or_eq_true, Bool.and_eq_true, decide_eq_true_eq,
    Char.le_def, ge_iff_le]
  tauto

theorem toLower_low {s : List Char} (h : LowerAscii s) : toLower s = s := by
  unfold toLower
  conv_rhs => rw [← List.map_id s]
  apply List.map_congr_left
  intro c hc
  unfold lower
  rw [if_neg (h c hc).2]; rfl

theorem parseInt_itoa_10 (n : Int) (h0 : 0 ≤ n) (h : n < 9223372036854775808) : parseInt (itoa n) 10 = .ok n := by
  unfold itoa
  rw [if_neg (by omega)]
  unfold parseInt
  rw [if_neg Nat.toDigits_ne_nil]
  obtain ⟨c, cs, hc⟩ : ∃ c cs, Nat.toDigits 10 n.natAbs = c :: cs := by
    cases hh : Nat.toDigits 10 n.natAbs with
    | nil => exact absurd hh Nat.toDigits_ne_nil
    | cons c cs => exact ⟨c, cs, rfl⟩
  have hd : c.isDigit = true := toDigits_isDigit (n := n.natAbs) (by rw [hc]; simp)
  obtain ⟨_, _, _, _, _, hm, hp, _⟩ := digit_props hd
  have hu := parseUint_toDigits_10 n.natAbs (by omega)
  rw [hc] at hu ⊢
  split
  rename_i neg ds heq
  split at heq
  · rename_i h2; simp at h2; exact absurd h2.1 hp
  · rename_i h2; simp at h2; exact absurd h2.1 hm
  · simp at heq
    obtain ⟨rfl, rfl⟩ := heq
    simp only [hu]
    simp
    rw [if_neg (by omega)]
    congr 1
    rw [abs_of_nonneg (by omega)]

/-- the tail `(\.[A-Za-z0-9]+)$` -/
def tailRe : Re := .seq (.group 4 (.seq (.cls (· == '.')) (.plus isAlnum))) .eos

theorem tail_ok (e : List Char) (hne : e ≠ []) (ha : ∀ c ∈ e, isAlnum c = true) (cap : Caps)
    (k : List Char → Caps → Option Caps) (x : Caps) (hk : k [] ((4, '.' :: e) :: cap) = some x) :
    tailRe.m ('.' :: e) cap k = some x := by
  unfold tailRe
  simp only [Re.m]
  simp only [beq_self_eq_true, if_true]
  cases e with
  | nil => exact absurd rfl hne
  | cons c e =>
    simp only [ha c (by simp), if_true]
    have := starM_run isAlnum [] (by simp) (fun s' => if s' = [] then
      k s' ((4, List.take (('.' :: c :: e).length - s'.length) ('.' :: c :: e)) :: cap) else none) x
      (by simp only [if_true]; simpa using hk) e (fun c hc => ha c (by simp [hc]))
    rw [List.append_nil] at this
    exact this

/-- the tail cannot match text that does not begin with a dot -/
theorem tail_fail (s : List Char) (h : ∀ r, s ≠ '.' :: r) (cap : Caps) (k : List Char → Caps → Option Caps) :
    tailRe.m s cap k = none := by
  unfold tailRe
  simp only [Re.m]
  cases s with
  | nil => rfl
  | cons c s =>
    have : c ≠ '.' := fun hc => h s (by rw [hc])
    simp [this]

/-- the optional ratio part -/
def ratioRe : Re := .opt (.group 2 (.seq (.cls (· == '@')) (.seq (.group 3 (.plus isDig)) (.cls (· == 'x')))))

theorem ratio_skip (s : List Char) (h : ∀ r, s ≠ '@' :: r) (cap : Caps) (k : List Char → Caps → Option Caps) :
    ratioRe.m s cap k = k s cap := by
  unfold ratioRe
  simp only [Re.m]
  cases s with
  | nil => rfl
  | cons c s =>
    have : c ≠ '@' := fun hc => h s (by rw [hc])
    simp [this]

theorem ratio_ok (d rest : List Char) (hd : d ≠ []) (hdig : ∀ c ∈ d, isDig c = true) (cap : Caps)
    (k : List Char → Caps → Option Caps) (x : Caps)
    (hk : k rest ((2, '@' :: d ++ ['x']) :: (3, d) :: cap) = some x) :
    ratioRe.m ('@' :: d ++ 'x' :: rest) cap k = some x := by
  unfold ratioRe
  have key : (Re.group 2 (.seq (.cls (· == '@')) (.seq (.group 3 (.plus isDig)) (.cls (· == 'x'))))).m
      ('@' :: d ++ 'x' :: rest) cap k = some x := by
    simp only [Re.m, List.cons_append, beq_self_eq_true, if_true]
    cases d with
    | nil => exact absurd rfl hd
    | cons c d =>
      simp only [List.cons_append, hdig c (by simp), if_true]
      apply starM_run isDig ('x' :: rest) (by simp; decide) _ x _ d (fun c hc => hdig c (by simp [hc]))
      simp only [beq_self_eq_true, if_true]
      have e1 : List.take ((c :: (d ++ 'x' :: rest)).length - ('x' :: rest).length) (c :: (d ++ 'x' :: rest)) = c :: d := by
        have := take_run (c :: d) ('x' :: rest)
        simpa using this
      have e2 : List.take (('@' :: c :: (d ++ 'x' :: rest)).length - rest.length) ('@' :: c :: (d ++ 'x' :: rest)) =
          '@' :: c :: d ++ ['x'] := by
        have := take_run ('@' :: c :: d ++ ['x']) rest
        simpa using this
      rw [e1, e2]
      exact hk
  conv_lhs => rw [Re.m]
  rw [key]

theorem re_eq : reSubFile = .seq (.group 1 (.plus (fun c => c != '@'))) (.seq ratioRe tailRe) := rfl

/-- C16: `ParseStyleFile(f.String()) == f`. -/
theorem C16_styleFile_roundtrip (f : StyleFile) (h : WellFormed f) : parseStyleFile (toStr f) = some f := by
  obtain ⟨hne, hat, hlow, ⟨e, hene, hext, healn, helow⟩, hr⟩ := h
  replace healn : ∀ c ∈ e, isAlnum c = true := fun c hc => (isAlnum_eq c).trans (healn c hc)
  have extlow : toLower f.ext = f.ext := by
    rw [hext]; unfold toLower; rw [List.map_cons]
    have := toLower_low helow
    unfold toLower at this
    rw [this]; rfl
  obtain ⟨t, ts, ht⟩ : ∃ t ts, f.type = t :: ts := by
    cases hh : f.type with
    | nil => exact absurd hh hne
    | cons t ts => exact ⟨t, ts, rfl⟩
  have pt : ∀ c ∈ f.type, (c != '@') = true := by
    intro c hc
    simp only [bne_iff_ne, ne_eq]
    rintro rfl
    exact hat hc
  have alnum_ne : ∀ c, isAlnum c = true → c ≠ '.' ∧ c ≠ '@' := by
    intro c hc
    constructor <;> (rintro rfl; exact absurd hc (by decide))
  rcases hr with hr | ⟨hr2, hr3⟩
  · -- no ratio
    have hs : toStr f = f.type ++ f.ext := by unfold toStr; rw [if_pos (by omega)]
    have hfind : reSubFile.find (toStr f) = some [(0, f.type ++ f.ext), (4, f.ext), (1, f.type)] := by
      rw [hs, re_eq]
      conv_lhs => rw [ht]
      rw [List.cons_append]
      unfold Re.find
      have : (Re.seq (.group 1 (.plus (fun c => c != '@'))) (.seq ratioRe tailRe)).m (t :: (ts ++ f.ext)) []
          (fun s' cap => some ((0, (t :: (ts ++ f.ext)).take ((t :: (ts ++ f.ext)).length - s'.length)) :: cap)) =
          some [(0, f.type ++ f.ext), (4, f.ext), (1, f.type)] := by
        simp only [Re.m]
        rw [if_pos (pt t (by rw [ht]; simp))]
        apply starM_split _ _ _ ts f.ext (fun c hc => pt c (by rw [ht]; simp [hc]))
        · rw [ratio_skip _ (by rw [hext]; simp)]
          rw [hext]
          apply tail_ok e hene healn
          simp only [List.length_nil, Nat.sub_zero, List.take_length]
          have := take_run (t :: ts) ('.' :: e)
          rw [ht]
          simp only [List.cons_append] at this ⊢
          rw [this]
        · intro u v huv hu _
          have hv : ∀ c ∈ v, isAlnum c = true := by
            intro c hc
            apply healn
            rw [hext] at huv
            cases u with
            | nil => exact absurd rfl hu
            | cons d u =>
              simp only [List.cons_append, List.cons.injEq] at huv
              rw [huv.2]; simp [hc]
          rw [ratio_skip, tail_fail]
          · intro r hr
            exact (alnum_ne '.' (hv '.' (by rw [hr]; simp))).1 rfl
          · intro r hr
            exact (alnum_ne '@' (hv '@' (by rw [hr]; simp))).2 rfl
      rw [this]
    unfold parseStyleFile
    rw [hfind]
    have g1 : Caps.get [(0, f.type ++ f.ext), (4, f.ext), (1, f.type)] 1 = f.type := rfl
    have g4 : Caps.get [(0, f.type ++ f.ext), (4, f.ext), (1, f.type)] 4 = f.ext := rfl
    have g3 : Caps.get [(0, f.type ++ f.ext), (4, f.ext), (1, f.type)] 3 = [] := rfl
    simp only [g1, g3, g4, toLower_low hlow, extlow]
    obtain ⟨a, b, c⟩ := f
    simp only at hr ⊢
    simp [hr]
  · have hs : toStr f = f.type ++ ('@' :: itoa f.pixelRatio ++ 'x' :: f.ext) := by
      unfold toStr; rw [if_neg (by omega)]; simp
    have hdig : ∀ c ∈ itoa f.pixelRatio, isDig c = true := by
      intro c hc; rw [isDig_iff]; exact itoa_nonneg_isDigit (by omega) hc
    have hdne : itoa f.pixelRatio ≠ [] := by
      unfold itoa; rw [if_neg (by omega)]; exact Nat.toDigits_ne_nil
    have hfind : ∃ z w, reSubFile.find (toStr f) =
        some [(0, z), (4, f.ext), (2, w), (3, itoa f.pixelRatio), (1, f.type)] := by
      refine ⟨t :: (ts ++ ('@' :: itoa f.pixelRatio ++ 'x' :: f.ext)), '@' :: itoa f.pixelRatio ++ ['x'], ?_⟩
      rw [hs, re_eq]
      conv_lhs => rw [ht]
      rw [List.cons_append]
      unfold Re.find
      have : (Re.seq (.group 1 (.plus (fun c => c != '@'))) (.seq ratioRe tailRe)).m
          (t :: (ts ++ ('@' :: itoa f.pixelRatio ++ 'x' :: f.ext))) []
          (fun s' cap => some ((0, (t :: (ts ++ ('@' :: itoa f.pixelRatio ++ 'x' :: f.ext))).take
            ((t :: (ts ++ ('@' :: itoa f.pixelRatio ++ 'x' :: f.ext))).length - s'.length)) :: cap)) =
          some [(0, (t :: (ts ++ ('@' :: itoa f.pixelRatio ++ 'x' :: f.ext)))), (4, f.ext),
            (2, '@' :: itoa f.pixelRatio ++ ['x']), (3, itoa f.pixelRatio), (1, f.type)] := by
        simp only [Re.m]
        rw [if_pos (pt t (by rw [ht]; simp))]
        apply starM_run _ ('@' :: itoa f.pixelRatio ++ 'x' :: f.ext) (by simp) _ _ _ ts
          (fun c hc => pt c (by rw [ht]; simp [hc]))
        apply ratio_ok _ _ hdne hdig
        rw [hext]
        apply tail_ok e hene healn
        simp only [List.length_nil, Nat.sub_zero, List.take_length]
        have := take_run (t :: ts) ('@' :: itoa f.pixelRatio ++ 'x' :: '.' :: e)
        rw [ht]
        simp only [List.cons_append] at this ⊢
        rw [this]
      rw [this]
    obtain ⟨z, w, hfind⟩ := hfind
    unfold parseStyleFile
    rw [hfind]
    generalize hcaps : ([(0, z), (4, f.ext), (2, w), (3, itoa f.pixelRatio), (1, f.type)] : Caps) = caps
    have g1 : Caps.get caps 1 = f.type := by rw [← hcaps]; rfl
    have g4 : Caps.get caps 4 = f.ext := by rw [← hcaps]; rfl
    have g3 : Caps.get caps 3 = itoa f.pixelRatio := by rw [← hcaps]; rfl
    simp only [g1, g3, g4, toLower_low hlow, extlow]
    rw [if_pos hdne, parseInt_itoa_10 _ (by omega) hr3]

/-- a concrete well-formed file -/
example : toStr ⟨"sprite".toList, ".json".toList, 2⟩ = "sprite@2x.json".toList ∧
    parseStyleFile "sprite@2x.json".toList = some ⟨"sprite".toList, ".json".toList, 2⟩ := by decide +kernel

example : WellFormed ⟨"sprite".toList, ".json".toList, 2⟩ where
  type_ne := by decide
  type_at := by decide
  type_low := by unfold LowerAscii; decide
  ext := ⟨"json".toList, by decide, rfl, by decide, by unfold LowerAscii; decide⟩
  ratio := Or.inr (by decide)

/-- C16, outside the claim: a ratio below 1 does not survive (it prints like 1). -/
theorem C16_ratio_zero_lost : parseStyleFile (toStr ⟨"a".toList, ".png".toList, 0⟩) = some ⟨"a".toList, ".png".toList, 1⟩ := by
  decide +kernel

/-- C16, outside the claim: a type with an `@` is cut at it, because the pattern is not anchored at the start. -/
theorem C16_at_sign_cut : parseStyleFile (toStr ⟨"a@b".toList, ".png".toList, 1⟩) = some ⟨"b".toList, ".png".toList, 1⟩ := by
  decide +kernel

end Verif.StyleFile
