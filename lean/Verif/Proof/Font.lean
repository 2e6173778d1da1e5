import Verif.Model.Font
import Mathlib.Tactic.Ring
import Mathlib.Tactic.FieldSimp
import Mathlib.Tactic.Linarith
import Mathlib.Tactic.LinearCombination
import Mathlib.Tactic.NormNum
import Mathlib.Order.Bounds.Basic

/-! Lower-envelope invariants of `edt1d` and the fold over columns and rows. -/
namespace Verif.Font

variable {K : Type} [Field K] [LinearOrder K] [IsStrictOrderedRing K]

/-- the parabola of site `j` -/
def P (f : Nat → K) (j : Nat) (x : K) : K := (x - j) * (x - j) + f j

theorem P_sub (f : Nat → K) {v q : Nat} (h : v < q) (x : K) :
    P f q x - P f v x = 2 * ((q : K) - v) * (getS f q v - x) := by
  have hpos : (0 : K) < (q : K) - v := by
    have : (v : K) < q := by exact_mod_cast h
    linarith
  have hne : (2 * (q : K) - 2 * v) ≠ 0 := by intro e; linarith
  have hs : getS f q v * (2 * (q : K) - 2 * v) = ((f q + (q : K) * q) - (f v + (v : K) * v)) := by
    unfold getS; rw [div_mul_cancel₀ _ hne]
  unfold P
  linear_combination (-1 : K) * hs

theorem P_le_iff (f : Nat → K) {v q : Nat} (h : v < q) (x : K) : P f q x ≤ P f v x ↔ getS f q v ≤ x := by
  have hpos : (0 : K) < 2 * ((q : K) - v) := by
    have : (v : K) < q := by exact_mod_cast h
    linarith
  have e := P_sub f h x
  constructor
  · intro hh
    by_contra hc
    push Not at hc
    have : 0 < 2 * ((q : K) - v) * (getS f q v - x) := mul_pos hpos (by linarith)
    linarith
  · intro hh
    have : 2 * ((q : K) - v) * (getS f q v - x) ≤ 0 := mul_nonpos_of_nonneg_of_nonpos hpos.le (by linarith)
    linarith

theorem P_le_iff' (f : Nat → K) {v q : Nat} (h : v < q) (x : K) : P f v x ≤ P f q x ↔ x ≤ getS f q v := by
  have hpos : (0 : K) < 2 * ((q : K) - v) := by
    have : (v : K) < q := by exact_mod_cast h
    linarith
  have e := P_sub f h x
  constructor
  · intro hh
    by_contra hc
    push Not at hc
    have : 2 * ((q : K) - v) * (getS f q v - x) < 0 := mul_neg_of_pos_of_neg hpos (by linarith)
    linarith
  · intro hh
    have : 0 ≤ 2 * ((q : K) - v) * (getS f q v - x) := mul_nonneg hpos.le (by linarith)
    linarith

/-- seeds in range and few enough pixels that no intersection reaches ±INF -/
structure Seeds (f : Nat → K) (n : Nat) : Prop where
  small : n ≤ 10000000000
  lo : ∀ i < n, 0 ≤ f i
  hi : ∀ i < n, f i ≤ INF

theorem sq_lt (q n : Nat) (hq : q < n) (hn : n ≤ 10000000000) : (q : K) * q < INF := by
  have h0 : q * q < 10 ^ 20 := by
    have h1 : q < 10000000000 := by omega
    calc q * q < 10000000000 * 10000000000 := Nat.mul_lt_mul'' h1 h1
      _ = 10 ^ 20 := by norm_num
  unfold INF
  exact_mod_cast h0

theorem getS_lt {f : Nat → K} {n : Nat} (S : Seeds f n) {v q : Nat} (h : v < q) (hq : q < n) : getS f q v < INF := by
  have hpos : (1 : K) ≤ (q : K) - v := by
    have : ((v + 1 : Nat) : K) ≤ q := by exact_mod_cast h
    push_cast at this; linarith
  unfold getS
  rw [div_lt_iff₀ (by linarith)]
  have a := sq_lt (K := K) q n hq S.small
  have b := S.hi q hq
  have c := S.lo v (by omega)
  have d : (0 : K) ≤ (v : K) * v := mul_self_nonneg _
  have e : (INF : K) * 2 ≤ INF * (2 * (q : K) - 2 * v) :=
    mul_le_mul_of_nonneg_left (by linarith) (by unfold INF; positivity)
  linarith

theorem lt_getS {f : Nat → K} {n : Nat} (S : Seeds f n) {v q : Nat} (h : v < q) (hq : q < n) : -INF < getS f q v := by
  have hpos : (1 : K) ≤ (q : K) - v := by
    have : ((v + 1 : Nat) : K) ≤ q := by exact_mod_cast h
    push_cast at this; linarith
  unfold getS
  rw [lt_div_iff₀ (by linarith)]
  have a := sq_lt (K := K) v n (by omega) S.small
  have b := S.hi v (by omega)
  have c := S.lo q hq
  have d : (0 : K) ≤ (q : K) * q := mul_self_nonneg _
  have e : (INF : K) * 2 ≤ INF * (2 * (q : K) - 2 * v) :=
    mul_le_mul_of_nonneg_left (by linarith) (by unfold INF; positivity)
  linarith

/-- lower envelope of the sites `0..q` -/
structure Env (f : Nat → K) (q k : Nat) (v : Nat → Nat) (z : Nat → K) : Prop where
  kq : k ≤ q
  vle : ∀ i ≤ k, v i ≤ q
  z0 : z 0 = -INF
  zk : z (k + 1) = INF
  zmono : ∀ i ≤ k, z i ≤ z (i + 1)
  opt : ∀ i ≤ k, ∀ x, z i ≤ x → x ≤ z (i + 1) → ∀ j ≤ q, P f (v i) x ≤ P f j x

omit [IsStrictOrderedRing K] in
theorem Env.z_le {f : Nat → K} {q k : Nat} {v : Nat → Nat} {z : Nat → K} (E : Env f q k v z) :
    ∀ i ≤ k + 1, z i ≤ INF := by
  intro i hi
  obtain ⟨m, hm⟩ : ∃ m, i + m = k + 1 := ⟨k + 1 - i, by omega⟩
  induction m generalizing i with
  | zero => rw [show i = k + 1 by omega, E.zk]
  | succ m ih => exact (E.zmono i (by omega)).trans (ih (i + 1) (by omega) (by omega))

theorem popLoop_spec {f : Nat → K} {n q k : Nat} {v : Nat → Nat} {z : Nat → K} (S : Seeds f n) (hq : q + 1 < n)
    (E : Env f q k v z) : ∀ m ≤ k, (∀ x, z (m + 1) ≤ x → x ≤ INF → ∀ j ≤ q, P f (q + 1) x ≤ P f j x) →
    ∃ r ≤ k, popLoop f v z (q + 1) m = some r ∧ z r < getS f (q + 1) (v r) ∧
      (∀ x, z (r + 1) ≤ x → x ≤ INF → ∀ j ≤ q, P f (q + 1) x ≤ P f j x) := by
  intro m
  induction m with
  | zero =>
    intro hm hx
    have hv := E.vle 0 (by omega)
    have : ¬ getS f (q + 1) (v 0) ≤ z 0 := by
      rw [E.z0]; push Not; exact lt_getS S (by omega) hq
    refine ⟨0, by omega, ?_, by push Not at this; exact this, hx⟩
    simp only [popLoop, if_neg this]
  | succ m ih =>
    intro hm hx
    have hv := E.vle (m + 1) hm
    by_cases h : getS f (q + 1) (v (m + 1)) ≤ z (m + 1)
    · obtain ⟨r, hr, e, h1, h2⟩ := ih (by omega) (by
        intro x h1 h2 j hj
        rcases le_total (z (m + 1 + 1)) x with h3 | h3
        · exact hx x h3 h2 j hj
        · exact ((P_le_iff f (by omega) x).2 (h.trans h1)).trans (E.opt (m + 1) hm x h1 h3 j hj))
      exact ⟨r, hr, by simp only [popLoop, if_pos h]; exact e, h1, h2⟩
    · exact ⟨m + 1, hm, by simp only [popLoop, if_neg h], by push Not at h; exact h, hx⟩

theorem put_same {α : Type} (s : Nat → α) (i : Nat) (x : α) : put s i x i = x := by simp [put]
theorem put_ne {α : Type} (s : Nat → α) {i j : Nat} (x : α) (h : j ≠ i) : put s i x j = s j := by simp [put, h]

theorem buildStep_spec {f : Nat → K} {L n q k : Nat} {v : Nat → Nat} {z : Nat → K} (S : Seeds f n) (hL : n < L)
    (hq : q + 1 < n) (E : Env f q k v z) :
    ∃ st, buildStep L f (k, v, z) (q + 1) = some st ∧ Env f (q + 1) st.1 st.2.1 st.2.2 := by
  obtain ⟨r, hr, e, h1, h2⟩ := popLoop_spec S hq E k (le_refl _) (by
    intro x hx hx' j hj
    rw [E.zk] at hx
    exact (P_le_iff f (by omega) x).2 ((getS_lt S (by omega) hq).le.trans hx))
  have hkq := E.kq
  have hvr := E.vle r hr
  have hs1 : getS f (q + 1) (v r) < INF := getS_lt S (by omega) hq
  have hs2 : getS f (q + 1) (v r) ≤ z (r + 1) := by
    have := h2 (z (r + 1)) (le_refl _) (E.z_le _ (by omega)) (v r) hvr
    exact (P_le_iff f (by omega) _).1 this
  refine ⟨_, by simp only [buildStep, e]; rw [if_pos (by omega)], ?_⟩
  refine ⟨by simp only; omega, ?_, ?_, ?_, ?_, ?_⟩
  · intro i hi
    simp only [put]
    split
    · omega
    · exact (E.vle i (by simp only at hi; omega)).trans (by omega)
  · simp only [put]; rw [if_neg (by omega), if_neg (by omega), E.z0]
  · simp only; rw [put_same]
  · intro i hi
    simp only at hi ⊢
    rcases Nat.lt_trichotomy i r with h | h | h
    · rw [put_ne _ _ (by omega), put_ne _ _ (by omega), put_ne _ _ (by omega), put_ne _ _ (by omega)]
      exact E.zmono i (by omega)
    · rw [put_ne _ _ (by omega), put_ne _ _ (by omega), put_ne _ _ (by omega), h, put_same]
      exact h1.le
    · rw [show i = r + 1 by omega, put_ne _ _ (by omega), put_same, put_same]
      exact hs1.le
  · intro i hi x hx hx' j hj
    simp only at hi hx hx' ⊢
    rcases Nat.lt_trichotomy i r with h | h | h
    · rw [put_ne _ _ (by omega), put_ne _ _ (by omega)] at hx hx'
      rw [put_ne _ _ (by omega)]
      rcases Nat.lt_or_ge j (q + 1) with h3 | h3
      · exact E.opt i (by omega) x hx hx' j (by omega)
      · rw [show j = q + 1 by omega]
        have hx'' : x ≤ z r := by
          have : ∀ m, i + 1 ≤ m → m ≤ r → z (i + 1) ≤ z m := by
            intro m hm
            induction m, hm using Nat.le_induction with
            | base => intro _; exact le_refl _
            | succ m hm ih => intro hmr; exact (ih (by omega)).trans (E.zmono m (by omega))
          exact hx'.trans (this r (by omega) (le_refl _))
        exact (E.opt i (by omega) x hx hx' (v r) hvr).trans
          ((P_le_iff' f (by omega) x).2 (hx''.trans h1.le))
    · rw [put_ne _ _ (by omega), put_ne _ _ (by omega), h] at hx
      rw [put_ne _ _ (by omega), h, put_same] at hx'
      rw [put_ne _ _ (by omega), h]
      rcases Nat.lt_or_ge j (q + 1) with h3 | h3
      · exact E.opt r hr x hx (hx'.trans hs2) j (by omega)
      · rw [show j = q + 1 by omega]
        exact (P_le_iff' f (by omega) x).2 hx'
    · have hi' : i = r + 1 := by omega
      rw [hi', put_ne _ _ (by omega), put_same] at hx
      rw [hi', put_same] at hx'
      rw [hi', put_same]
      rcases Nat.lt_or_ge j (q + 1) with h3 | h3
      · rcases le_total (z (r + 1)) x with h4 | h4
        · exact h2 x h4 hx' j (by omega)
        · exact ((P_le_iff f (by omega) x).2 hx).trans (E.opt r hr x (h1.le.trans hx) h4 j (by omega))
      · rw [show j = q + 1 by omega]

theorem foldlM_append_some {σ α : Type} (step : σ → α → Option σ) (l : List α) (a : α) (s : σ) :
    (l ++ [a]).foldlM step s = (l.foldlM step s).bind (fun s' => step s' a) := by
  rw [List.foldlM_append]
  show (l.foldlM step s).bind _ = (l.foldlM step s).bind _
  congr 1
  funext s'
  simp [List.foldlM]

/-- invariant rule for `for i := 0; i < n; i++` -/
theorem foldlM_range {σ : Type} (step : σ → Nat → Option σ) (Q : Nat → σ → Prop) (n : Nat) (s : σ) (h0 : Q 0 s)
    (hs : ∀ m < n, ∀ st, Q m st → ∃ st', step st m = some st' ∧ Q (m + 1) st') :
    ∃ st, (List.range n).foldlM step s = some st ∧ Q n st := by
  induction n with
  | zero => exact ⟨s, rfl, h0⟩
  | succ n ih =>
    obtain ⟨st, e, hst⟩ := ih (fun m hm => hs m (by omega))
    obtain ⟨st', e', hst'⟩ := hs n (by omega) st hst
    refine ⟨st', ?_, hst'⟩
    rw [List.range_succ, foldlM_append_some, e]
    exact e'

theorem foldlM_range' {σ : Type} (step : σ → Nat → Option σ) (Q : Nat → σ → Prop) (n : Nat) (s : σ) (h0 : Q 0 s)
    (hs : ∀ m < n, ∀ st, Q m st → ∃ st', step st (m + 1) = some st' ∧ Q (m + 1) st') :
    ∃ st, (List.range' 1 n).foldlM step s = some st ∧ Q n st := by
  induction n with
  | zero => exact ⟨s, rfl, h0⟩
  | succ n ih =>
    obtain ⟨st, e, hst⟩ := ih (fun m hm => hs m (by omega))
    obtain ⟨st', e', hst'⟩ := hs n (by omega) st hst
    refine ⟨st', ?_, hst'⟩
    rw [List.range'_concat, foldlM_append_some, e]
    simp only [Nat.one_mul, Nat.add_comm 1 n]
    exact e'

theorem build_spec {f : Nat → K} {L n : Nat} (S : Seeds f n) (hL : n < L) (hn : 0 < n) (v : Nat → Nat) (z : Nat → K) :
    ∃ k v' z', (List.range' 1 (n - 1)).foldlM (buildStep L f) (0, put v 0 0, put (put z 0 (-INF)) 1 INF) =
      some (k, v', z') ∧ Env f (n - 1) k v' z' := by
  obtain ⟨st, e, h⟩ := foldlM_range' (buildStep L f) (fun m st => Env f m st.1 st.2.1 st.2.2) (n - 1)
    (0, put v 0 0, put (put z 0 (-INF)) 1 INF) (by
      refine ⟨le_refl _, ?_, ?_, ?_, ?_, ?_⟩
      · intro i hi; simp only at hi; rw [show i = 0 by omega]; simp [put]
      · simp [put]
      · simp [put]
      · intro i hi; simp only at hi; rw [show i = 0 by omega]
        simp only [put]
        norm_num [INF]
      · intro i hi x _ _ j hj
        simp only at hi hj
        rw [show i = 0 by omega, show j = 0 by omega]
        simp [put])
    (by
      intro m hm st hst
      exact buildStep_spec S hL (by omega) hst)
  exact ⟨st.1, st.2.1, st.2.2, e, h⟩

theorem advance_spec {f : Nat → K} {n k : Nat} {v : Nat → Nat} {z : Nat → K} (hn : n ≤ 10000000000)
    (E : Env f (n - 1) k v z) (q : Nat) (hq : q < n) : ∀ (m i : Nat), i ≤ k → k - i < m → z i ≤ (q : K) →
    ∃ r ≤ k, advance z q m i = some r ∧ z r ≤ q ∧ (q : K) ≤ z (r + 1) := by
  have hqI : (q : K) ≤ INF := by
    have : q ≤ 10 ^ 20 := by
      have : (10 : Nat) ^ 20 = 100000000000000000000 := by norm_num
      omega
    unfold INF; exact_mod_cast this
  intro m
  induction m with
  | zero => intro i _ h; omega
  | succ m ih =>
    intro i hi hm hz
    by_cases h : z (i + 1) < (q : K)
    · have : i ≠ k := by
        intro e; rw [e, E.zk] at h; exact absurd hqI (not_le.2 h)
      obtain ⟨r, hr, e, h1⟩ := ih (i + 1) (by omega) (by omega) h.le
      exact ⟨r, hr, by simp only [advance, if_pos h]; exact e, h1⟩
    · exact ⟨i, hi, by simp only [advance, if_neg h], hz, by push Not at h; exact h⟩

/-- the costs a site can be reached with from `q` -/
def costs (f : Nat → K) (n q : Nat) : Set K :=
  {c | ∃ j < n, c = ((q : K) - j) * ((q : K) - j) + f j}

theorem edt1d_spec (L n : Nat) (b : Bufs K) (hL : n < L) (hn : 0 < n) (S : Seeds b.f n) :
    ∃ b', edt1d L n b = some b' ∧ (∀ q < n, IsLeast (costs b.f n q) (b'.d q)) := by
  obtain ⟨k, v, z, e, E⟩ := build_spec S hL hn b.v b.z
  have hk := E.kq
  obtain ⟨st, e2, h2⟩ := foldlM_range (scanStep L b.f v z)
    (fun m st => st.1 ≤ k ∧ (m = 0 → z st.1 ≤ 0) ∧ (0 < m → z st.1 ≤ ((m - 1 : Nat) : K)) ∧
      ∀ q < m, IsLeast (costs b.f n q) (st.2 q)) n (0, b.d)
    (by
      refine ⟨by simp, ?_, by simp, by simp⟩
      intro _
      simp only [E.z0]
      norm_num [INF])
    (by
      intro m hm st hst
      obtain ⟨h1, h2, h3, h4⟩ := hst
      have hz : z st.1 ≤ (m : K) := by
        rcases Nat.eq_zero_or_pos m with h | h
        · rw [h]; simpa using h2 h
        · refine (h3 h).trans ?_
          exact_mod_cast Nat.sub_le m 1
      obtain ⟨r, hr, er, hr1, hr2⟩ := advance_spec S.small E m hm (L - (st.1 + 1)) st.1 h1 (by omega) hz
      refine ⟨(r, put st.2 m (((m : K) - v r) * ((m : K) - v r) + b.f (v r))), by simp only [scanStep, er], hr, by simp, ?_, ?_⟩
      · intro _; simpa using hr1
      · intro q hq
        simp only
        rcases Nat.lt_or_ge q m with h | h
        · rw [put_ne _ _ (by omega)]; exact h4 q h
        · rw [show q = m by omega, put_same]
          have hv := E.vle r hr
          refine ⟨⟨v r, by omega, rfl⟩, ?_⟩
          rintro c ⟨j, hj, rfl⟩
          exact E.opt r hr m hr1 hr2 j (by omega))
  refine ⟨⟨b.f, st.2, v, z⟩, ?_, h2.2.2.2⟩
  rw [edt1d, if_pos (by omega), e]
  simp only [e2]

omit [IsStrictOrderedRing K] in
theorem edt1d_f (L n : Nat) (b b' : Bufs K) (h : edt1d L n b = some b') : b'.f = b.f := by
  unfold edt1d at h
  split at h
  · split at h
    · cases h
    · split at h
      · cases h
      · injection h with h; rw [← h]
  · cases h

theorem least_le_INF {f : Nat → K} {n q : Nat} (S : Seeds f n) (hq : q < n) {c : K} (h : IsLeast (costs f n q) c) :
    0 ≤ c ∧ c ≤ INF := by
  constructor
  · obtain ⟨j, hj, e⟩ := h.1
    rw [e]
    have := mul_self_nonneg ((q : K) - j)
    have := S.lo j hj
    linarith
  · have := h.2 ⟨q, hq, rfl⟩
    have h2 := S.hi q hq
    simp only [sub_self, mul_zero, zero_add] at this
    exact this.trans h2

/-- the costs with which pixel `(x, y)` can reach a pixel -/
def costs2 (g : Nat → Nat → K) (w h x y : Nat) : Set K :=
  {c | ∃ i < w, ∃ j < h, c = ((x : K) - i) * ((x : K) - i) + ((y : K) - j) * ((y : K) - j) + g i j}

theorem edt_spec (sqrt : K → K) (w h L : Nat) (g : Nat → Nat → K) (b : Bufs K) (hw : 0 < w) (hh : 0 < h) (hwL : w < L)
    (hhL : h < L) (hw' : w ≤ 10000000000) (hh' : h ≤ 10000000000)
    (lo : ∀ i < w, ∀ j < h, 0 ≤ g i j) (hi : ∀ i < w, ∀ j < h, g i j ≤ INF) :
    ∃ g' b', edt sqrt L w h g b = some (g', b') ∧
      ∀ x < w, ∀ y < h, ∃ c, IsLeast (costs2 g w h x y) c ∧ g' x y = sqrt c := by
  obtain ⟨st, e1, h1⟩ := foldlM_range (colStep L h)
    (fun m st => (∀ x < m, ∀ y < h, IsLeast (costs (g x) h y) (st.1 x y)) ∧ (∀ x, m ≤ x → ∀ y, st.1 x y = g x y)) w
    (g, b) ⟨by intro x hx; omega, by intros; rfl⟩ (by
      intro m hm st hst
      have S : Seeds (fun y => if y < h then st.1 m y else st.2.f y) h :=
        ⟨hh', fun i hi' => by simp only [if_pos hi']; rw [hst.2 m (le_refl _)]; exact lo m hm i hi',
          fun i hi' => by simp only [if_pos hi']; rw [hst.2 m (le_refl _)]; exact hi m hm i hi'⟩
      obtain ⟨b', eb, hb⟩ := edt1d_spec L h { st.2 with f := fun y => if y < h then st.1 m y else st.2.f y } hhL hh S
      refine ⟨(fun x' y => if x' = m ∧ y < h then b'.d y else st.1 x' y, b'), by simp only [colStep, eb], ?_, ?_⟩
      · intro x hx y hy
        simp only
        rcases Nat.lt_or_ge x m with hxm | hxm
        · rw [if_neg (by omega)]; exact hst.1 x hxm y hy
        · have : x = m := by omega
          rw [if_pos ⟨this, hy⟩, this]
          have := hb y hy
          have ec : costs (fun y => if y < h then st.1 m y else st.2.f y) h y = costs (g m) h y := by
            ext c
            constructor
            · rintro ⟨j, hj, ej⟩
              refine ⟨j, hj, ?_⟩
              rw [ej]; simp only [if_pos hj]; rw [hst.2 m (le_refl _)]
            · rintro ⟨j, hj, ej⟩
              refine ⟨j, hj, ?_⟩
              rw [ej]; simp only [if_pos hj]; rw [hst.2 m (le_refl _)]
          rw [← ec]; exact this
      · intro x hx y
        simp only
        rw [if_neg (by omega)]
        exact hst.2 x (by omega) y)
  have hcol : ∀ x < w, ∀ y < h, 0 ≤ st.1 x y ∧ st.1 x y ≤ INF := by
    intro x hx y hy
    exact least_le_INF (f := g x) ⟨hh', lo x hx, hi x hx⟩ hy (h1.1 x hx y hy)
  obtain ⟨st2, e2, h2⟩ := foldlM_range (rowStep sqrt L w)
    (fun m s => (∀ y < m, ∀ x < w, ∃ c, IsLeast (costs2 g w h x y) c ∧ s.1 x y = sqrt c) ∧
      (∀ y, m ≤ y → ∀ x, s.1 x y = st.1 x y)) h st ⟨by intro y hy; omega, by intros; rfl⟩ (by
      intro m hm s hs
      have S : Seeds (fun x => if x < w then s.1 x m else s.2.f x) w :=
        ⟨hw', fun i hi' => by simp only [if_pos hi']; rw [hs.2 m (le_refl _)]; exact (hcol i hi' m hm).1,
          fun i hi' => by simp only [if_pos hi']; rw [hs.2 m (le_refl _)]; exact (hcol i hi' m hm).2⟩
      obtain ⟨b', eb, hb⟩ := edt1d_spec L w { s.2 with f := fun x => if x < w then s.1 x m else s.2.f x } hwL hw S
      refine ⟨(fun x y' => if y' = m ∧ x < w then sqrt (b'.d x) else s.1 x y', b'), by simp only [rowStep, eb], ?_, ?_⟩
      · intro y hy x hx
        simp only
        rcases Nat.lt_or_ge y m with hym | hym
        · rw [if_neg (by omega)]; exact hs.1 y hym x hx
        · have hy' : y = m := by omega
          rw [if_pos ⟨hy', hx⟩, hy']
          refine ⟨b'.d x, ?_, rfl⟩
          obtain ⟨⟨i, hi', ei⟩, hmin⟩ := hb x hx
          have key : ∀ i < w, (if i < w then s.1 i m else s.2.f i) = st.1 i m := by
            intro i hi'; rw [if_pos hi', hs.2 m (le_refl _)]
          constructor
          · simp only [key i hi'] at ei
            obtain ⟨j, hj, ej⟩ := (h1.1 i hi' m hm).1
            exact ⟨i, hi', j, hj, by rw [ei, ej]; ring⟩
          · rintro c ⟨i', hi2, j, hj, rfl⟩
            have a := hmin ⟨i', hi2, rfl⟩
            simp only [key i' hi2] at a
            have b := (h1.1 i' hi2 m hm).2 ⟨j, hj, rfl⟩
            linarith
      · intro y hy x
        simp only
        rw [if_neg (by omega)]
        exact hs.2 y (by omega) x)
  refine ⟨st2.1, st2.2, ?_, fun x hx y hy => h2.1 y hy x hx⟩
  unfold edt
  rw [e1]
  exact e2

end Verif.Font
